import Verif.Model.HtmlReport
import Verif.Lemmas.Py
import Verif.Lemmas.Compare

/-!
# C126: the page of a report shows the results as they are

Whatever the texts of a log are, a reader of the page finds the elements of the page and in them these texts, unchanged; every
result has a row with its own baseline, coloured as it is classified; and the differences of the environments are all listed.
-/

set_option linter.unusedSimpArgs false
set_option linter.unusedVariables false

namespace Ez.Html
open Bench (Val Metric score classify)

/-! ### Specification: reading a page -/

/-- What a reader makes of character references. -/
def unescape : Text → Text
  | '&' :: 'a' :: 'm' :: 'p' :: ';' :: r => '&' :: unescape r
  | '&' :: 'l' :: 't' :: ';' :: r => '<' :: unescape r
  | '&' :: 'g' :: 't' :: ';' :: r => '>' :: unescape r
  | '&' :: 'q' :: 'u' :: 'o' :: 't' :: ';' :: r => '"' :: unescape r
  | '&' :: '#' :: 'x' :: '2' :: '7' :: ';' :: r => '\'' :: unescape r
  | c :: r => c :: unescape r
  | [] => []

/-- The parts of a page: text, markup, and the value of an attribute. -/
inductive Part where
  | text (s : Text)
  | tag (s : Text)
  | value (s : Text)
  deriving DecidableEq, Repr

/-- Where a reader is. -/
inductive Mode where
  | text
  | tag
  | value

/-- A reader: `<` begins markup, `>` ends it, and within it values are between apostrophes. -/
def read : Mode → Text → Text → List Part
  | .text, acc, [] => [.text (unescape acc)]
  | .tag, acc, [] => [.tag acc]
  | .value, acc, [] => [.value (unescape acc)]
  | .text, acc, c :: r => if c = '<' then .text (unescape acc) :: read .tag [] r else read .text (acc ++ [c]) r
  | .tag, acc, c :: r =>
    if c = '>' then .tag acc :: read .text [] r
    else if c = '\'' then .tag acc :: read .value [] r
    else read .tag (acc ++ [c]) r
  | .value, acc, c :: r => if c = '\'' then .value (unescape acc) :: read .tag [] r else read .value (acc ++ [c]) r

/-- A text without the characters that mean something in a page. -/
def Plain (s : Text) : Prop := ∀ c ∈ s, c ≠ '&' ∧ c ≠ '<' ∧ c ≠ '>' ∧ c ≠ '"' ∧ c ≠ '\''

/-! ### Characters -/

theorem replace_append (c : Char) (n s t : Text) : replace c n (s ++ t) = replace c n s ++ replace c n t := by
  simp [replace]

theorem escape_append (s t : Text) : escape (s ++ t) = escape s ++ escape t := by
  simp only [escape, replace_append]

theorem escape_cons (c : Char) (s : Text) : escape (c :: s) = escape [c] ++ escape s := escape_append [c] s

theorem escape_plain {c : Char} (h : c ≠ '&' ∧ c ≠ '<' ∧ c ≠ '>' ∧ c ≠ '"' ∧ c ≠ '\'') : escape [c] = [c] := by
  simp [escape, replace, h]

theorem unescape_cons {c : Char} {r : Text} (h : c ≠ '&') : unescape (c :: r) = c :: unescape r := by
  rw [unescape] <;> (intros; contradiction)

theorem one (c : Char) : (escape [c] = [c] ∧ c ≠ '&' ∧ c ≠ '<' ∧ c ≠ '>' ∧ c ≠ '"' ∧ c ≠ '\'') ∨
    (c = '&' ∧ escape [c] = "&amp;".toList) ∨ (c = '<' ∧ escape [c] = "&lt;".toList) ∨ (c = '>' ∧ escape [c] = "&gt;".toList) ∨
    (c = '"' ∧ escape [c] = "&quot;".toList) ∨ (c = '\'' ∧ escape [c] = "&#x27;".toList) := by
  by_cases h1 : c = '&'
  · subst h1; exact Or.inr (Or.inl ⟨rfl, by decide⟩)
  by_cases h2 : c = '<'
  · subst h2; exact Or.inr (Or.inr (Or.inl ⟨rfl, by decide⟩))
  by_cases h3 : c = '>'
  · subst h3; exact Or.inr (Or.inr (Or.inr (Or.inl ⟨rfl, by decide⟩)))
  by_cases h4 : c = '"'
  · subst h4; exact Or.inr (Or.inr (Or.inr (Or.inr (Or.inl ⟨rfl, by decide⟩))))
  by_cases h5 : c = '\''
  · subst h5; exact Or.inr (Or.inr (Or.inr (Or.inr (Or.inr ⟨rfl, by decide⟩))))
  exact Or.inl ⟨escape_plain ⟨h1, h2, h3, h4, h5⟩, h1, h2, h3, h4, h5⟩

theorem unescape_escape_append (s t : Text) : unescape (escape s ++ t) = s ++ unescape t := by
  induction s with
  | nil => rfl
  | cons c s ih =>
    rw [escape_cons, List.append_assoc]
    rcases one c with ⟨h, h1, _⟩ | ⟨rfl, h⟩ | ⟨rfl, h⟩ | ⟨rfl, h⟩ | ⟨rfl, h⟩ | ⟨rfl, h⟩
    · rw [h, List.singleton_append, unescape_cons h1, ih]; rfl
    all_goals
      rw [h, List.cons_append, ← ih]
      simp [unescape]

theorem escape_safe (s : Text) : '<' ∉ escape s ∧ '>' ∉ escape s ∧ '"' ∉ escape s ∧ '\'' ∉ escape s := by
  induction s with
  | nil => decide
  | cons c s ih =>
    rw [escape_cons]
    simp only [List.mem_append, not_or]
    rcases one c with ⟨h, _, h2, h3, h4, h5⟩ | ⟨rfl, h⟩ | ⟨rfl, h⟩ | ⟨rfl, h⟩ | ⟨rfl, h⟩ | ⟨rfl, h⟩
    · rw [h]
      refine ⟨⟨?_, ih.1⟩, ⟨?_, ih.2.1⟩, ⟨?_, ih.2.2.1⟩, ?_, ih.2.2.2⟩ <;> (simp only [List.mem_singleton]; exact fun e => absurd e.symm (by assumption))
    all_goals
      rw [h]
      exact ⟨⟨by decide, ih.1⟩, ⟨by decide, ih.2.1⟩, ⟨by decide, ih.2.2.1⟩, by decide, ih.2.2.2⟩

/-- **C126** An escaped text has no character that ends a text or a value, a reader gets the text back, and so different texts
stay different. -/
theorem C126_escape (s : Text) :
    ('<' ∉ escape s ∧ '>' ∉ escape s ∧ '"' ∉ escape s ∧ '\'' ∉ escape s) ∧ unescape (escape s) = s ∧
    ∀ t, escape t = escape s → t = s := by
  have back : ∀ s, unescape (escape s) = s := fun s => by
    have := unescape_escape_append s []
    simpa [unescape] using this
  exact ⟨escape_safe s, back s, fun t h => by rw [← back t, h, back s]⟩

example : escape "a<'&lt;".toList = "a&lt;&#x27;&amp;lt;".toList := by decide +kernel

/-! ### Elements -/

theorem text_run {s : Text} (h : '<' ∉ s) : ∀ acc r, read .text acc (s ++ r) = read .text (acc ++ s) r := by
  induction s with
  | nil => intro acc r; simp
  | cons c s ih =>
    intro acc r
    simp only [List.mem_cons, not_or] at h
    rw [List.cons_append, read, if_neg (fun e => h.1 e.symm), ih h.2]
    simp

theorem value_run {s : Text} (h : '\'' ∉ s) : ∀ acc r, read .value acc (s ++ r) = read .value (acc ++ s) r := by
  induction s with
  | nil => intro acc r; simp
  | cons c s ih =>
    intro acc r
    simp only [List.mem_cons, not_or] at h
    rw [List.cons_append, read, if_neg (fun e => h.1 e.symm), ih h.2]
    simp

theorem plain_unescape_append {s : Text} (h : Plain s) (t : Text) : unescape (s ++ t) = s ++ unescape t := by
  induction s with
  | nil => rfl
  | cons c s ih =>
    rw [List.cons_append, unescape_cons (h c (by simp)).1, ih (fun x hx => h x (by simp [hx]))]; rfl

theorem plain_unescape {s : Text} (h : Plain s) : unescape s = s := by
  have := plain_unescape_append h []
  simpa [unescape] using this

theorem unescape_escape (s : Text) : unescape (escape s) = s := (C126_escape s).2.1

theorem text_esc (s acc r : Text) : read .text acc (escape s ++ r) = read .text (acc ++ escape s) r := text_run (escape_safe s).1 _ _

theorem value_esc (s acc r : Text) : read .value acc (escape s ++ r) = read .value (acc ++ escape s) r := value_run (escape_safe s).2.2.2 _ _

/-- What a reader finds for a choice. -/
def choice (v : Text) : List Part :=
  [.text [], .tag "option value=".toList, .value v, .tag [], .text v, .tag "/option".toList]

theorem read_option (v r : Text) : read .text [] (option v ++ r) = choice v ++ read .text [] r := by
  have l1 : ∀ x, read .text [] ("<option value='".toList ++ x) = .text [] :: .tag "option value=".toList :: read .value [] x := fun _ => by simp [read, unescape]
  have l2 : ∀ a x, read .value a ("'>".toList ++ x) = .value (unescape a) :: .tag [] :: read .text [] x := fun _ _ => by simp [read, unescape]
  have l3 : ∀ a x, read .text a ("</option>".toList ++ x) = .text (unescape a) :: .tag "/option".toList :: read .text [] x := fun _ _ => by simp [read, unescape]
  unfold option
  simp only [List.append_assoc]
  rw [l1, value_esc, l2, text_esc, l3]
  simp only [List.nil_append, unescape_escape]
  rfl

theorem read_many {α : Type} (f : α → Text) (g : α → List Part) (h : ∀ x r, read .text [] (f x ++ r) = g x ++ read .text [] r) :
    ∀ (l : List α) (r : Text), read .text [] (l.flatMap f ++ r) = l.flatMap g ++ read .text [] r
  | [], r => rfl
  | x :: l, r => by
    rw [List.flatMap_cons, List.flatMap_cons, List.append_assoc, h, read_many f g h l, List.append_assoc]

/-- **C126** A reader finds in a control its label, and one choice per value, with this value and this text, after the one for
all. -/
theorem C126_options (values : List Text) (label : Text) :
    read .text [] (options values label) =
      [.text [], .tag "label class=".toList, .value "control".toList, .tag [], .text label, .tag "select data-filter=".toList,
        .value (label.map Char.toLower), .tag [], .text [], .tag "option value=".toList, .value [], .tag [], .text "All".toList,
        .tag "/option".toList] ++ values.flatMap choice ++
      [.text [], .tag "/select".toList, .text [], .tag "/label".toList, .text []] := by
  have l1 : ∀ x, read .text [] ("<label class='control'>".toList ++ x) =
    .text [] :: .tag "label class=".toList :: .value "control".toList :: .tag [] :: read .text [] x := fun _ => by simp [read, unescape]
  have l2 : ∀ a x, read .text a ("<select data-filter='".toList ++ x) =
    .text (unescape a) :: .tag "select data-filter=".toList :: read .value [] x := fun _ _ => by simp [read, unescape]
  have l3 : ∀ a x, read .value a ("'>".toList ++ x) = .value (unescape a) :: .tag [] :: read .text [] x := fun _ _ => by simp [read, unescape]
  have l4 : ∀ x, read .text [] ("<option value=''>All</option>".toList ++ x) =
    .text [] :: .tag "option value=".toList :: .value [] :: .tag [] :: .text "All".toList :: .tag "/option".toList :: read .text [] x := fun _ => by simp [read, unescape]
  have l5 : read .text [] "</select></label>".toList = [.text [], .tag "/select".toList, .text [], .tag "/label".toList, .text []] := by simp [read, unescape]
  unfold options
  simp only [List.append_assoc]
  rw [l1, text_esc, l2, value_esc, l3, l4, read_many option choice read_option, l5]
  simp only [List.nil_append, unescape_escape]
  rfl

example : read .text [] (option "'><script>".toList) = choice "'><script>".toList ++ [.text []] := by decide +kernel

theorem digits_plain (n : Nat) : Plain (toString n).toList := by
  have e : (toString n).toList = Nat.toDigits 10 n := by show (Nat.repr n).toList = _; simp [Nat.repr]
  rw [e]
  intro c hc
  have := Nat.isDigit_of_mem_toDigits (by decide) (by decide) hc
  refine ⟨?_, ?_, ?_, ?_, ?_⟩ <;> (rintro rfl; revert this; decide)

theorem Plain.text {s : Text} (h : Plain s) : '<' ∉ s := fun hm => (h _ hm).2.1 rfl

theorem Plain.value {s : Text} (h : Plain s) : '\'' ∉ s := fun hm => (h _ hm).2.2.2.2 rfl

/-- What a reader finds for an entry of a list of changes. -/
def entry (d : Change) : List Part :=
  [.text [], .tag "li".toList, .text [], .tag "b".toList, .text d.metric, .tag "/b".toList, .text (": ".toList ++ d.value ++ " ".toList),
    .tag "span class=".toList, .value "muted".toList, .tag [],
    .text ("(".toList ++ d.config ++ "/".toList ++ d.comms ++ ", n_clients=".toList ++ (toString d.clients).toList ++
      ", msg_size=".toList ++ (toString d.size).toList ++ ")".toList), .tag "/span".toList, .text [], .tag "/li".toList]

theorem read_item (d : Change) (r : Text) : read .text [] (item d ++ r) = entry d ++ read .text [] r := by
  have l1 : ∀ x, read .text [] ("<li><b>".toList ++ x) = .text [] :: .tag "li".toList :: .text [] :: .tag "b".toList :: read .text [] x := fun _ => by simp [read, unescape]
  have l2 : ∀ a x, read .text a ("</b>: ".toList ++ x) = .text (unescape a) :: .tag "/b".toList :: read .text ": ".toList x := fun _ _ => by simp [read, unescape]
  have l3 : ∀ a x, read .text a (" <span class='muted'>(".toList ++ x) =
    .text (unescape (a ++ " ".toList)) :: .tag "span class=".toList :: .value "muted".toList :: .tag [] :: read .text "(".toList x := fun _ _ => by simp [read, unescape]
  have l4 : ∀ a x, read .text a (")</span></li>".toList ++ x) =
    .text (unescape (a ++ ")".toList)) :: .tag "/span".toList :: .text [] :: .tag "/li".toList :: read .text [] x := fun _ _ => by simp [read, unescape]
  unfold item
  simp only [List.append_assoc]
  rw [l1, text_esc, l2, text_esc, l3, text_esc, text_run (s := "/".toList) (by decide), text_esc, text_run (s := ", n_clients=".toList) (by decide),
    text_run (digits_plain _).text, text_run (s := ", msg_size=".toList) (by decide), text_run (digits_plain _).text, l4]
  have p1 : Plain ": ".toList := by unfold Plain; decide +kernel
  have p2 : Plain " ".toList := by unfold Plain; decide +kernel
  have p3 : Plain "(".toList := by unfold Plain; decide +kernel
  have p4 : Plain "/".toList := by unfold Plain; decide +kernel
  have p5 : Plain ", n_clients=".toList := by unfold Plain; decide +kernel
  have p6 : Plain ", msg_size=".toList := by unfold Plain; decide +kernel
  have p7 : Plain ")".toList := by unfold Plain; decide +kernel
  simp only [List.nil_append, unescape_escape, List.append_assoc, plain_unescape_append p1, plain_unescape_append p3,
    plain_unescape_append p4, plain_unescape_append p5, plain_unescape_append p6, plain_unescape_append (digits_plain _),
    unescape_escape_append, plain_unescape p2, plain_unescape p7, entry, List.cons_append]

/-- **C126** A reader finds in a list of changes its title and the first five changes, or what is to be said if there are
none. -/
theorem C126_changes (title : Text) (ds : List Change) (empty : Text) :
    read .text [] (deltaList title ds empty) =
      [.text [], .tag "section".toList, .text [], .tag "h2".toList, .text title, .tag "/h2".toList] ++
      (if ds = [] then [.text [], .tag "div class=".toList, .value "muted".toList, .tag [], .text empty, .tag "/div".toList]
        else [.text [], .tag "ol class=".toList, .value "callout-list".toList, .tag []] ++ (ds.take 5).flatMap entry ++
          [.text [], .tag "/ol".toList]) ++
      [.text [], .tag "/section".toList, .text []] := by
  have l1 : ∀ x, read .text [] ("<section><h2>".toList ++ x) =
    .text [] :: .tag "section".toList :: .text [] :: .tag "h2".toList :: read .text [] x := fun _ => by simp [read, unescape]
  have l2 : ∀ a x, read .text a ("</h2><div class='muted'>".toList ++ x) = .text (unescape a) :: .tag "/h2".toList :: .text [] ::
    .tag "div class=".toList :: .value "muted".toList :: .tag [] :: read .text [] x := fun _ _ => by simp [read, unescape]
  have l3 : ∀ a, read .text a "</div></section>".toList =
    [.text (unescape a), .tag "/div".toList, .text [], .tag "/section".toList, .text []] := fun _ => by simp [read, unescape]
  have l4 : ∀ a x, read .text a ("</h2><ol class='callout-list'>".toList ++ x) = .text (unescape a) :: .tag "/h2".toList :: .text [] ::
    .tag "ol class=".toList :: .value "callout-list".toList :: .tag [] :: read .text [] x := fun _ _ => by simp [read, unescape]
  have l5 : read .text [] "</ol></section>".toList = [.text [], .tag "/ol".toList, .text [], .tag "/section".toList, .text []] := by simp [read, unescape]
  unfold deltaList
  split
  · simp only [List.append_assoc]
    rw [l1, text_esc, l2, text_esc, l3]
    simp only [List.nil_append, unescape_escape]
    rfl
  · simp only [List.append_assoc]
    rw [l1, text_esc, l4, read_many item entry read_item, l5]
    simp only [List.nil_append, unescape_escape, List.cons_append, List.append_assoc]

/-- What a reader finds for a cell with a name. -/
def nameCell (v : Text) : List Part := [.text [], .tag "td class=".toList, .value "left".toList, .tag [], .text v, .tag "/td".toList]

/-- What a reader finds for a cell with a metric. -/
def numberCell (c : Cell) : List Part :=
  [.text [], .tag "td class=".toList, .value ("metric-cell metric-".toList ++ c.group), .tag " style=".toList, .value c.style,
    .tag " data-metric=".toList, .value c.metric, .tag " data-candidate=".toList, .value c.candidate, .tag " data-baseline=".toList,
    .value c.baseline, .tag " data-relative=".toList, .value c.relative, .tag " data-mode=".toList, .value c.mode, .tag [],
    .text c.shown, .tag "/td".toList]

/-- The numbers and the style are written without special characters. -/
structure Cell.Fine (c : Cell) : Prop where
  style : Plain c.style
  candidate : Plain c.candidate
  baseline : Plain c.baseline
  relative : Plain c.relative

theorem read_keyCell (v r : Text) : read .text [] (keyCell v ++ r) = nameCell v ++ read .text [] r := by
  have l1 : ∀ x, read .text [] ("<td class='left'>".toList ++ x) =
    .text [] :: .tag "td class=".toList :: .value "left".toList :: .tag [] :: read .text [] x := fun _ => by simp [read, unescape]
  have l2 : ∀ a x, read .text a ("</td>".toList ++ x) = .text (unescape a) :: .tag "/td".toList :: read .text [] x := fun _ _ => by simp [read, unescape]
  unfold keyCell
  simp only [List.append_assoc]
  rw [l1, text_esc, l2]
  simp only [List.nil_append, unescape_escape]
  rfl

theorem read_metricCell {c : Cell} (h : c.Fine) (r : Text) : read .text [] (metricCell c ++ r) = numberCell c ++ read .text [] r := by
  have l1 : ∀ x, read .text [] ("<td class='metric-cell metric-".toList ++ x) =
    .text [] :: .tag "td class=".toList :: read .value "metric-cell metric-".toList x := fun _ => by simp [read, unescape]
  have l2 : ∀ a x, read .value a ("' style='".toList ++ x) = .value (unescape a) :: .tag " style=".toList :: read .value [] x := fun _ _ => by simp [read, unescape]
  have l3 : ∀ a x, read .value a ("' data-metric='".toList ++ x) = .value (unescape a) :: .tag " data-metric=".toList :: read .value [] x := fun _ _ => by simp [read, unescape]
  have l4 : ∀ a x, read .value a ("' data-candidate='".toList ++ x) = .value (unescape a) :: .tag " data-candidate=".toList :: read .value [] x := fun _ _ => by simp [read, unescape]
  have l5 : ∀ a x, read .value a ("' data-baseline='".toList ++ x) = .value (unescape a) :: .tag " data-baseline=".toList :: read .value [] x := fun _ _ => by simp [read, unescape]
  have l6 : ∀ a x, read .value a ("' data-relative='".toList ++ x) = .value (unescape a) :: .tag " data-relative=".toList :: read .value [] x := fun _ _ => by simp [read, unescape]
  have l7 : ∀ a x, read .value a ("' data-mode='".toList ++ x) = .value (unescape a) :: .tag " data-mode=".toList :: read .value [] x := fun _ _ => by simp [read, unescape]
  have l8 : ∀ a x, read .value a ("'>".toList ++ x) = .value (unescape a) :: .tag [] :: read .text [] x := fun _ _ => by simp [read, unescape]
  have l9 : ∀ a x, read .text a ("</td>".toList ++ x) = .text (unescape a) :: .tag "/td".toList :: read .text [] x := fun _ _ => by simp [read, unescape]
  unfold metricCell
  simp only [List.append_assoc]
  rw [l1, value_esc, l2, value_run h.style.value, l3, value_esc, l4, value_run h.candidate.value, l5, value_run h.baseline.value, l6,
    value_run h.relative.value, l7, value_esc, l8, text_esc, l9]
  have p : Plain "metric-cell metric-".toList := by unfold Plain; decide +kernel
  simp only [List.nil_append, unescape_escape, plain_unescape_append p, plain_unescape h.style, plain_unescape h.candidate,
    plain_unescape h.baseline, plain_unescape h.relative, numberCell, List.cons_append]

/-- **C126** A reader finds in a row the names of its combination, as values and in cells, and the metrics, one cell each. -/
theorem C126_row (config comms clients size severity : Text) (cells : List Cell) (hs : Plain severity) (hc : ∀ c ∈ cells, c.Fine) :
    read .text [] (rowText config comms clients size severity cells) =
      [.text [], .tag "tr data-config=".toList, .value config, .tag " data-comms=".toList, .value comms, .tag " data-n_clients=".toList,
        .value clients, .tag " data-msg_size=".toList, .value size, .tag " data-severity=".toList, .value severity, .tag []] ++
      nameCell config ++ nameCell comms ++ nameCell clients ++ nameCell size ++ cells.flatMap numberCell ++
      [.text [], .tag "/tr".toList, .text []] := by
  have l1 : ∀ x, read .text [] ("<tr data-config='".toList ++ x) = .text [] :: .tag "tr data-config=".toList :: read .value [] x := fun _ => by simp [read, unescape]
  have l2 : ∀ a x, read .value a ("' data-comms='".toList ++ x) = .value (unescape a) :: .tag " data-comms=".toList :: read .value [] x := fun _ _ => by simp [read, unescape]
  have l3 : ∀ a x, read .value a ("' data-n_clients='".toList ++ x) = .value (unescape a) :: .tag " data-n_clients=".toList :: read .value [] x := fun _ _ => by simp [read, unescape]
  have l4 : ∀ a x, read .value a ("' data-msg_size='".toList ++ x) = .value (unescape a) :: .tag " data-msg_size=".toList :: read .value [] x := fun _ _ => by simp [read, unescape]
  have l5 : ∀ a x, read .value a ("' data-severity='".toList ++ x) = .value (unescape a) :: .tag " data-severity=".toList :: read .value [] x := fun _ _ => by simp [read, unescape]
  have l6 : ∀ a x, read .value a ("'>".toList ++ x) = .value (unescape a) :: .tag [] :: read .text [] x := fun _ _ => by simp [read, unescape]
  have l7 : read .text [] "</tr>".toList = [.text [], .tag "/tr".toList, .text []] := by simp [read, unescape]
  have many : ∀ (l : List Cell), (∀ c ∈ l, c.Fine) → ∀ r, read .text [] (l.flatMap metricCell ++ r) = l.flatMap numberCell ++ read .text [] r := by
    intro l
    induction l with
    | nil => intro _ r; rfl
    | cons c l ih =>
      intro h r
      rw [List.flatMap_cons, List.flatMap_cons, List.append_assoc, read_metricCell (h c (by simp)), ih (fun x hx => h x (by simp [hx])), List.append_assoc]
  unfold rowText
  simp only [List.append_assoc]
  rw [l1, value_esc, l2, value_esc, l3, value_esc, l4, value_esc, l5, value_run hs.value, l6, read_keyCell, read_keyCell, read_keyCell,
    read_keyCell, many cells hc, l7]
  simp only [List.nil_append, unescape_escape, plain_unescape hs, List.cons_append, List.append_assoc]

example : Cell.Fine ⟨"latency".toList, [], "latency_mean".toList, "1.5".toList, "nan".toList, "nan".toList, "candidate".toList, "<&>".toList⟩ := by
  constructor <;> (unfold Plain; decide +kernel)

/-! ### Rows -/

theorem table_get {K : Type} [DecidableEq K] (k : K) : ∀ (rs : List (Rec K)) (d : PyDict K (Rec K)),
    PyDict.get? (rs.foldl (fun d r => PyDict.set d r.key r) d) k =
      ((rs.filter (fun r => decide (r.key = k))).getLast?.or (PyDict.get? d k))
  | [], d => by simp
  | r :: rs, d => by
    rw [List.foldl_cons, table_get k rs, PyDict.get?_set]
    by_cases h : r.key = k
    · rw [List.filter_cons_of_pos (by simpa using h), if_pos h.symm]
      cases hf : rs.filter (fun r => decide (r.key = k)) with
      | nil => simp
      | cons x l => simp [List.getLast?_cons]
    · rw [List.filter_cons_of_neg (by simpa using h), if_neg (fun e => h e.symm)]

/-- The record of a combination in a frame where every combination is once. -/
def Of {K : Type} (rs : List (Rec K)) (k : K) (o : Option (Rec K)) : Prop :=
  match o with
  | some r => r ∈ rs ∧ r.key = k
  | none => ∀ r ∈ rs, r.key ≠ k

theorem table_of {K : Type} [DecidableEq K] (rs : List (Rec K)) (k : K) : Of rs k (PyDict.get? (table rs) k) := by
  rw [table, table_get]
  have e : PyDict.get? ([] : PyDict K (Rec K)) k = none := rfl
  rw [e, Option.or_none]
  cases h : (rs.filter (fun r => decide (r.key = k))).getLast? with
  | none =>
    have := List.getLast?_eq_none_iff.1 h
    intro r hr hk
    have : r ∈ rs.filter (fun r => decide (r.key = k)) := List.mem_filter.2 ⟨hr, by simpa using hk⟩
    simp_all
  | some r =>
    have := List.mem_of_getLast? h
    simpa [Of] using List.mem_filter.1 this

theorem abs_le {q b : Rat} : abs q ≤ b ↔ q ≤ b ∧ -b ≤ q := by
  unfold abs; split <;> constructor <;> intro h <;> (try constructor) <;> grind

theorem severity_spec {K : Type} (r : Rec K) : (∃ m, severity r = abs (score m (r.val m))) ∧ ∀ m, abs (score m (r.val m)) ≤ severity r := by
  have key : ∀ (l : List Metric) (a : Rat), (∃ m, a = abs (score m (r.val m))) →
      (∃ m, l.foldl (fun a m => if a < abs (score m (r.val m)) then abs (score m (r.val m)) else a) a = abs (score m (r.val m))) ∧
      a ≤ l.foldl (fun a m => if a < abs (score m (r.val m)) then abs (score m (r.val m)) else a) a ∧
      ∀ m ∈ l, abs (score m (r.val m)) ≤ l.foldl (fun a m => if a < abs (score m (r.val m)) then abs (score m (r.val m)) else a) a := by
    intro l
    induction l with
    | nil => intro a ha; exact ⟨ha, Rat.le_refl, by simp⟩
    | cons x l ih =>
      intro a ha
      rw [List.foldl_cons]
      have h := ih (if a < abs (score x (r.val x)) then abs (score x (r.val x)) else a) (by split; exact ⟨x, rfl⟩; exact ha)
      refine ⟨h.1, ?_, ?_⟩
      · have := h.2.1
        revert this
        split
        · rename_i hlt; intro this; exact Rat.le_trans (Rat.le_of_lt hlt) this
        · exact id
      · intro m hm
        rcases List.mem_cons.1 hm with rfl | hm
        · have := h.2.1
          revert this
          split
          · exact id
          · rename_i hlt; intro this; exact Rat.le_trans (Rat.not_lt.1 hlt) this
        · exact h.2.2 m hm
  have h := key Bench.metrics (abs (score .sampleRateMean (r.val .sampleRateMean))) ⟨_, rfl⟩
  refine ⟨h.1, fun m => h.2.2 m ?_⟩
  cases m <;> decide

/-- **C126** Every result has one row, in the order of the results, with the baseline and the comparison of the same
combination, if there is one; its severity is the largest change of a metric. -/
theorem C126_rows {K : Type} [DecidableEq K] (candidate : List (Rec K)) (baseline relative : Option (List (Rec K))) :
    (buildRows candidate baseline relative).map (·.candidate) = candidate ∧
    ∀ row ∈ buildRows candidate baseline relative, row.key = row.candidate.key ∧
      Of (baseline.getD []) row.key row.baseline ∧ Of (relative.getD []) row.key row.relative ∧
      (row.relative = none → row.severity = 0) ∧
      ∀ x, row.relative = some x → (∃ m, row.severity = abs (score m (x.val m))) ∧ ∀ m, abs (score m (x.val m)) ≤ row.severity := by
  refine ⟨by simp [buildRows, Function.comp_def], ?_⟩
  intro row h
  simp only [buildRows, List.mem_map] at h
  obtain ⟨r, hr, rfl⟩ := h
  refine ⟨rfl, table_of _ _, table_of _ _, ?_, ?_⟩
  · intro h; simp only at h ⊢; rw [h]
  · intro x h; simp only at h ⊢; rw [h]; exact severity_spec x

example : (buildRows [⟨1, fun _ => .num 90⟩, ⟨2, fun _ => .num 5⟩] (some [⟨2, fun _ => .num 7⟩]) (some [⟨2, fun _ => .num 70⟩])).map
    (fun r => (r.key, r.baseline.map (·.key), r.severity)) = [(1, none, 0), (2, some 2, 30)] := by decide +kernel

/-! ### Colours -/

/-- **C126** A cell is coloured exactly if its metric is not neutral: green for an improvement, red for a regression, and the
stronger the larger the change, between 15 and 50 percent. -/
theorem C126_color {band : Rat} (hb : 0 ≤ band) (m : Metric) (v : Val) :
    (color band m v = none ↔ classify band m v = .neutral) ∧
    (∀ a, color band m v = some (true, a) → classify band m v = .improvement) ∧
    (∀ a, color band m v = some (false, a) → classify band m v = .regression) ∧
    (∀ g a, color band m v = some (g, a) → 15 / 100 ≤ a ∧ a ≤ 50 / 100) ∧
    ∀ m' v' g a g' a', color band m v = some (g, a) → color band m' v' = some (g', a') →
      abs (score m v) ≤ abs (score m' v') → a ≤ a' := by
  have form : ∀ m v g a, color band m v = some (g, a) → (∃ q, v = .num q) ∧ band < abs (score m v) ∧ g = decide (0 < score m v) ∧
      a = 15 / 100 + 35 / 100 * (if (abs (score m v) - band) / 45 < 1 then (abs (score m v) - band) / 45 else 1) := by
    intro m v g a h
    cases v with
    | num q =>
      simp only [color] at h
      split at h
      · cases h
      · rename_i hb'
        have hlt := Rat.not_le.1 hb'
        simp only [Option.some.injEq, Prod.mk.injEq] at h
        refine ⟨⟨q, rfl⟩, hlt, h.1.symm, ?_⟩
        rw [← h.2]
        have hs : ¬ (if (abs (score m (Val.num q)) - band) / 45 < 1 then (abs (score m (Val.num q)) - band) / 45 else 1) < 0 := by
          split <;> grind
        rw [if_neg hs]
    | inf => cases h
    | nan => cases h
  have neutral : color band m v = none ↔ classify band m v = .neutral := by
    cases v with
    | num q =>
      simp only [color, classify]
      by_cases hh : abs (score m (Val.num q)) ≤ band
      · rw [if_pos hh, if_pos (abs_le.1 hh)]; simp
      · rw [if_neg hh, if_neg (fun h => hh (abs_le.2 h))]
        simp only [reduceCtorEq, false_iff]; split <;> simp
    | inf =>
      have : score m .inf = 0 := rfl
      simp only [color, classify, this, true_iff]
      rw [if_pos ⟨hb, by grind⟩]
    | nan =>
      have : score m .nan = 0 := rfl
      simp only [color, classify, this, true_iff]
      rw [if_pos ⟨hb, by grind⟩]
  have said : ∀ g a, color band m v = some (g, a) → classify band m v = if g then .improvement else .regression := by
    intro g a h
    have hn : classify band m v ≠ .neutral := by
      intro hc; rw [neutral.2 hc] at h; cases h
    obtain ⟨_, _, hg, _⟩ := form m v g a h
    unfold classify at hn ⊢
    split at hn
    · exact absurd rfl hn
    · rename_i hh
      rw [if_neg hh, hg]
      by_cases h0 : 0 < score m v
      · rw [if_pos h0]; simp [h0]
      · rw [if_neg h0]; simp [h0]
  refine ⟨neutral, fun a h => by simpa using said true a h, fun a h => by simpa using said false a h, ?_, ?_⟩
  · intro g a h
    obtain ⟨_, h1, _, h2⟩ := form m v g a h
    rw [h2]
    split <;> grind
  · intro m' v' g a g' a' h h' hle
    obtain ⟨_, h1, _, h2⟩ := form m v g a h
    obtain ⟨_, h1', _, h2'⟩ := form m' v' g' a' h'
    rw [h2, h2']
    split <;> split <;> grind

example : color 10 .latencyMean (.num 40) = some (true, 15 / 100 + 35 / 100 * (50 / 45)) ∨
    color 10 .latencyMean (.num 40) = some (true, 50 / 100) := by decide +kernel

/-! ### Environments -/

theorem diff_mem {V : Type} [DecidableEq V] (a b : PyDict Text V) (k : Text) (x y : Option V) :
    (k, (x, y)) ∈ diff a b ↔ x = PyDict.get? a k ∧ y = PyDict.get? b k ∧ x ≠ y := by
  unfold diff
  simp only [List.mem_filterMap, List.mem_append, List.mem_filter, decide_eq_true_eq]
  constructor
  · rintro ⟨k', _, h⟩
    split at h
    · rename_i hne
      injection h with h
      injection h with h1 h2
      injection h2 with h2 h3
      subst h1
      exact ⟨h2.symm, h3.symm, by rw [← h2, ← h3]; exact hne⟩
    · cases h
  · rintro ⟨rfl, rfl, hne⟩
    refine ⟨k, ?_, by rw [if_pos hne]⟩
    by_cases ha : k ∈ PyDict.keys a
    · exact Or.inl ha
    · refine Or.inr ⟨?_, ha⟩
      by_cases hb : k ∈ PyDict.keys b
      · exact hb
      · exfalso
        apply hne
        have none : ∀ d : PyDict Text V, k ∉ PyDict.keys d → PyDict.get? d k = none := by
          intro d hd
          unfold PyDict.get?
          rw [Option.map_eq_none_iff, List.find?_eq_none]
          intro p hp hk
          exact hd (List.mem_map.2 ⟨p, hp, by simpa using hk⟩)
        rw [none a ha, none b hb]

/-- **C126** The differences of two environments are exactly the fields with different values, each with both values and each
once; there are none exactly if the environments agree; and the page lists one line per difference, in the order of the
names. -/
theorem C126_environment {V : Type} [DecidableEq V] (a b : PyDict Text V) (shown : Option V → Text) :
    (∀ k x y, (k, (x, y)) ∈ diff a b ↔ x = PyDict.get? a k ∧ y = PyDict.get? b k ∧ x ≠ y) ∧
    ((PyDict.keys a).Nodup → (PyDict.keys b).Nodup → ((diff a b).map (·.1)).Nodup) ∧
    (diff a b = [] ↔ ∀ k, PyDict.get? a k = PyDict.get? b k) ∧
    ((∀ k, PyDict.get? a k = PyDict.get? b k) → formatDiff shown (diff a b) = ["No differences.".toList]) ∧
    ((∃ k, PyDict.get? a k ≠ PyDict.get? b k) → ∃ (ds : List (Text × (Option V × Option V))) (pad : Text → Text),
      ds.Perm (diff a b) ∧ ds.Pairwise (fun x y => String.ofList x.1 ≤ String.ofList y.1) ∧
      (∀ k, ∃ n, pad k = k ++ List.replicate n ' ') ∧ (∀ d ∈ ds, ∀ d' ∈ ds, (pad d.1).length = (pad d'.1).length) ∧
      formatDiff shown (diff a b) = "Differences in TestEnvironmentInfo:".toList ::
        ds.map (fun d => "  ".toList ++ pad d.1 ++ " : ".toList ++ shown d.2.1 ++ "  !=  ".toList ++ shown d.2.2)) := by
  have empty : diff a b = [] ↔ ∀ k, PyDict.get? a k = PyDict.get? b k := by
    constructor
    · intro h k
      by_cases e : PyDict.get? a k = PyDict.get? b k
      · exact e
      · have := (diff_mem a b k _ _).2 ⟨rfl, rfl, e⟩
        rw [h] at this; cases this
    · intro h
      rw [List.eq_nil_iff_forall_not_mem]
      rintro ⟨k, x, y⟩ hm
      obtain ⟨rfl, rfl, hne⟩ := (diff_mem a b k x y).1 hm
      exact hne (h k)
  refine ⟨diff_mem a b, ?_, empty, ?_, ?_⟩
  · intro ha hb
    have hn : (PyDict.keys a ++ (PyDict.keys b).filter (fun k => decide (k ∉ PyDict.keys a))).Nodup := by
      rw [List.nodup_append]
      refine ⟨ha, hb.filter _, ?_⟩
      intro x hx y hy hxy
      subst hxy
      have := (List.mem_filter.1 hy).2
      simp at this
      exact this hx
    have hsub : ∀ l : List Text, ((l.filterMap (fun k =>
        if PyDict.get? a k ≠ PyDict.get? b k then some (k, (PyDict.get? a k, PyDict.get? b k)) else none)).map (·.1)).Sublist l := by
      intro l
      induction l with
      | nil => simp
      | cons k l ih =>
        rw [List.filterMap_cons]
        split
        · exact ih.cons k
        · rename_i d hd
          split at hd
          · cases hd
            exact ih.cons_cons k
          · cases hd
    exact (hsub _).nodup hn
  · intro h
    rw [empty.2 h]; rfl
  · rintro ⟨k, hk⟩
    have hne : diff a b ≠ [] := fun h => hk (empty.1 h k)
    have perm := AB.sort_perm (le := fun x y : Text × (Option V × Option V) => textLe x.1 y.1) (diff a b)
    have so := AB.sort_sorted (le := fun x y : Text × (Option V × Option V) => textLe x.1 y.1)
      (fun x y => by simp only [textLe, decide_eq_true_eq]; exact String.le_total _ _)
      (fun x y z => by simp only [textLe, decide_eq_true_eq]; exact String.le_trans) (diff a b)
    refine ⟨_, ljust (((diff a b).map (fun d => d.1.length)).foldl max 0), perm, ?_, fun k => ⟨_, rfl⟩, ?_, ?_⟩
    · exact so.imp (fun {x y} h => of_decide_eq_true h)
    · have big : ∀ (l : List Nat) (z : Nat), z ≤ l.foldl max z ∧ ∀ x ∈ l, x ≤ l.foldl max z := by
        intro l
        induction l with
        | nil => intro z; simp
        | cons y l ih =>
          intro z
          rw [List.foldl_cons]
          have h := ih (max z y)
          refine ⟨by omega, ?_⟩
          intro x hx
          rcases List.mem_cons.1 hx with rfl | hx
          · omega
          · exact h.2 x hx
      have len : ∀ d ∈ diff a b, (ljust (((diff a b).map (fun d => d.1.length)).foldl max 0) d.1).length =
          ((diff a b).map (fun d => d.1.length)).foldl max 0 := by
        intro d hd
        have := (big ((diff a b).map (fun d => d.1.length)) 0).2 d.1.length (List.mem_map.2 ⟨d, hd, rfl⟩)
        simp only [ljust, List.length_append, List.length_replicate]
        omega
      intro d hd d' hd'
      rw [len d (perm.mem_iff.1 hd), len d' (perm.mem_iff.1 hd')]
    · unfold formatDiff
      rw [if_neg hne]

example : formatDiff (fun o => (o.getD "None").toList) (diff [("os".toList, "A"), ("cpu".toList, "1")] [("os".toList, "B"), ("cpu".toList, "2")]) =
    ["Differences in TestEnvironmentInfo:".toList, "  cpu : 1  !=  2".toList, "  os  : A  !=  B".toList] := by decide +kernel

end Ez.Html
