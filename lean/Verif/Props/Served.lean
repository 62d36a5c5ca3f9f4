import Verif.Props.Snapshot

/-!
# C124: the graph server serves whoever is connected, and answers from what was asked before

The specification looks at the history of steps only: who a connection belongs to (`whoIs`), which ids were handed out
(`Named`), what was connected (`MadeBy`, from C11), claimed (`Claimed`, from C91) and registered (`metadataOf`, from C51).
-/

set_option linter.unusedSectionVars false
set_option linter.unusedSimpArgs false

namespace Ez
namespace Srv
variable {T I A V : Type} [DecidableEq T] [DecidableEq I] [DecidableEq A]

/-! ## Specification -/

/-- What a connection is for. -/
inductive Who (T I : Type) where
  | publisher (topic : T)
  | subscriber (topic : T)
  | channel (publisher : I)
  | session
  | process
deriving DecidableEq

/-- What the connection `i` is for after the history, `none` when there is no such connection (any more). -/
def whoIs (h : List (Act T I A V × Reply)) (i : I) : Option (Who T I) :=
  h.foldl (fun m c => match c with
    | (.subscribe j t, .complete) => if j = i then some (.subscriber t) else m
    | (.publish j t, .complete) => if j = i then some (.publisher t) else m
    | (.channel j p, .complete) => if j = i then some (.channel p) else m
    | (.openSession j, .complete) => if j = i then some .session else m
    | (.openProcess j, .complete) => if j = i then some .process else m
    | (.gone j, _) => if j = i then none else m
    | (.sessionGone j, _) => if j = i then none else m
    | (.processGone j, _) => if j = i then none else m
    | _ => m) none

/-- The id a step hands out. -/
def newId : Act T I A V → Option I
  | .subscribe i _ => some i
  | .publish i _ => some i
  | .channel i _ => some i
  | .openSession i => some i
  | .openProcess i => some i
  | .request r _ _ => some r
  | .watchSettings i _ => some i
  | .watchTopology i _ => some i
  | _ => none

/-- The id was handed out. -/
def Named (h : List (Act T I A V × Reply)) (i : I) : Prop := ∃ c ∈ h, c.2 = .complete ∧ newId c.1 = some i

/-- What comes from outside, unlike the steps by which the server itself goes on. -/
def Act.external : Act T I A V → Bool
  | .timeout _ => false
  | .resume _ => false
  | .notify _ => false
  | .write _ _ => false
  | _ => true

/-- Who may ask for what: new ids are new, a session's commands come over a session's connection, a process's over a
process's, and a connection ends once. -/
def MayAsk (h : List (Act T I A V × Reply)) : Act T I A V → Prop
  | .subscribe i _ => ¬ Named h i
  | .publish i _ => ¬ Named h i
  | .channel i _ => ¬ Named h i
  | .openSession i => ¬ Named h i
  | .openProcess i => ¬ Named h i
  | .request r _ _ => ¬ Named h r
  | .watchSettings i _ => ¬ Named h i
  | .watchTopology i _ => ¬ Named h i
  | .gone i => (∃ t, whoIs h i = some (.publisher t)) ∨ (∃ t, whoIs h i = some (.subscriber t)) ∨
      ∃ p, whoIs h i = some (.channel p)
  | .sessionConnect s _ _ => whoIs h s = some .session
  | .sessionDisconnect s _ _ => whoIs h s = some .session
  | .sessionClear s => whoIs h s = some .session
  | .sessionGone s => whoIs h s = some .session
  | .sessionRegister s md => whoIs h s = some .session ∧ md.keys.Nodup
  | .registerProcess p _ => whoIs h p = some .process
  | .updateOwnership p _ _ => whoIs h p = some .process
  | .updateSettings p _ _ => whoIs h p = some .process
  | .processGone p => whoIs h p = some .process
  | .response p _ _ => whoIs h p = some .process
  | _ => True

/-- `b` leads to `a` over connections that were made and not given up, or they are the same topic. -/
def WouldLoop (h : List (Act T I A V × Reply)) (a b : T) : Prop :=
  a = b ∨ Path (fun x y => ∃ o, MadeBy h x y o) b a

/-- The answer to a step, from what happened before. -/
def Answer (h : List (Act T I A V × Reply)) : Act T I A V → Reply → Prop
  | .connect a b, r => (WouldLoop h a b ∧ r = .cyclic) ∨ (¬ WouldLoop h a b ∧ r = .complete)
  | .sessionConnect _ a b, r => (WouldLoop h a b ∧ r = .cyclic) ∨ (¬ WouldLoop h a b ∧ r = .complete)
  | .channel _ p, r => ((∃ t, whoIs h p = some (.publisher t)) ∧ r = .complete) ∨
      ((∀ t, whoIs h p ≠ some (.publisher t)) ∧ r = .error)
  | .sessionRegister s md, r =>
      ((∃ s' md' a, s' ≠ s ∧ metadataOf h s' = some md' ∧ a ∈ md'.keys ∧ a ∈ md.keys) ∧ r = .error) ∨
      ((∀ s' md' a, s' ≠ s → metadataOf h s' = some md' → a ∈ md'.keys → a ∉ md.keys) ∧ r = .complete)
  | .registerProcess p us, r => ((∃ u ∈ us, ∃ q, q ≠ p ∧ Claimed h q u) ∧ r = .error) ∨
      ((∀ u ∈ us, ∀ q, q ≠ p → ¬ Claimed h q u) ∧ r = .complete)
  | .updateOwnership p us _, r => ((∃ u ∈ us, ∃ q, q ≠ p ∧ Claimed h q u) ∧ r = .error) ∨
      ((∀ u ∈ us, ∀ q, q ≠ p → ¬ Claimed h q u) ∧ r = .complete)
  | .updateSettings p a _, r => (Claimed h p a ∧ r = .complete) ∨ (¬ Claimed h p a ∧ r = .error)
  | _, r => r = .complete

/-! ## Lemmas -/

/-- What a client is for. -/
def Client.who : Client T I A V → Who T I
  | .pub t => .publisher t
  | .sub t _ _ => .subscriber t
  | .chan p => .channel p
  | .session _ _ => .session
  | .process _ => .process

/-- One more entry of the history. -/
def whoNext (i : I) (m : Option (Who T I)) : Act T I A V × Reply → Option (Who T I)
  | (.subscribe j t, .complete) => if j = i then some (.subscriber t) else m
  | (.publish j t, .complete) => if j = i then some (.publisher t) else m
  | (.channel j p, .complete) => if j = i then some (.channel p) else m
  | (.openSession j, .complete) => if j = i then some .session else m
  | (.openProcess j, .complete) => if j = i then some .process else m
  | (.gone j, _) => if j = i then none else m
  | (.sessionGone j, _) => if j = i then none else m
  | (.processGone j, _) => if j = i then none else m
  | _ => m

theorem whoIs_snoc (h : List (Act T I A V × Reply)) (c : Act T I A V × Reply) (i : I) :
    whoIs (h ++ [c]) i = whoNext i (whoIs h i) c := by
  unfold whoIs; rw [List.foldl_append]; rfl

theorem named_snoc (h : List (Act T I A V × Reply)) (c : Act T I A V × Reply) (i : I) :
    Named (h ++ [c]) i ↔ Named h i ∨ (c.2 = .complete ∧ newId c.1 = some i) := by
  unfold Named
  simp only [List.mem_append, List.mem_singleton]
  constructor
  · rintro ⟨x, hx | rfl, h1⟩
    · exact Or.inl ⟨x, hx, h1⟩
    · exact Or.inr h1
  · rintro (⟨x, hx, h1⟩ | h1)
    · exact ⟨x, Or.inl hx, h1⟩
    · exact ⟨c, Or.inr rfl, h1⟩

theorem who_step {cfg : Cfg} {sv sv' : Server T I A V} {act : Act T I A V} {r : Reply} (hinv : EdgeInv sv)
    (h : step cfg sv act = some (sv', r)) (i : I) :
    (sv'.clients.get? i).map Client.who = whoNext i ((sv.clients.get? i).map Client.who) (act, r) := by
  rw [clients_step hinv h i]
  cases act with
  | subscribe j t =>
    simp only [step] at h; split at h <;> cases h
    simp only [clientAfter, whoNext, eq_comm (a := i)]; split <;> rfl
  | publish j t =>
    simp only [step] at h; split at h <;> cases h
    simp only [clientAfter, whoNext, eq_comm (a := i)]; split <;> rfl
  | openSession j =>
    simp only [step] at h; split at h <;> cases h
    simp only [clientAfter, whoNext, eq_comm (a := i)]; split <;> rfl
  | openProcess j =>
    simp only [step] at h; split at h <;> cases h
    simp only [clientAfter, whoNext, eq_comm (a := i)]; split <;> rfl
  | channel j p =>
    simp only [step] at h; split at h
    · cases h
    · split at h
      · rename_i hp; cases h
        simp only [clientAfter, whoNext, hp, eq_comm (a := i)]; split <;> rfl
      · rename_i hp; cases h
        simp only [clientAfter, whoNext]
  | gone j => simp only [clientAfter, whoNext, eq_comm (a := i)]; split <;> rfl
  | sessionGone j => simp only [clientAfter, whoNext, eq_comm (a := i)]; split <;> rfl
  | processGone j => simp only [clientAfter, whoNext, eq_comm (a := i)]; split <;> rfl
  | sessionConnect s a b =>
    simp only [clientAfter, whoNext]
    split
    · rcases sv.clients.get? i with _ | (_ | _ | _ | _ | _) <;> rfl
    · rfl
  | sessionDisconnect s a b =>
    simp only [clientAfter, whoNext]
    split
    · rcases sv.clients.get? i with _ | (_ | _ | _ | _ | _) <;> rfl
    · rfl
  | sessionClear s =>
    simp only [step] at h
    split at h
    · rename_i x hx
      obtain ⟨es, md⟩ := x
      have hx := sessionInfo_some.1 hx
      simp only [clientAfter, whoNext]
      split
      · rename_i e; subst e; rw [hx]; rfl
      · rfl
    · cases h
  | sessionRegister s md =>
    simp only [clientAfter, whoNext]
    split
    · rcases sv.clients.get? i with _ | (_ | _ | _ | _ | _) <;> rfl
    · rfl
  | registerProcess p us =>
    simp only [step] at h
    split at h
    · rename_i x hx
      have hx := processInfo_some.1 hx
      simp only [clientAfter, whoNext]
      split
      · rename_i e; obtain ⟨rfl, _⟩ := e; rw [hx]; rfl
      · rfl
    · cases h
  | updateOwnership p us rs =>
    simp only [step] at h
    split at h
    · rename_i x hx
      have hx := processInfo_some.1 hx
      simp only [clientAfter, whoNext]
      split
      · rename_i e; obtain ⟨rfl, _⟩ := e; rw [hx]; rfl
      · rfl
    · cases h
  | notify j =>
    simp only [clientAfter, whoNext]
    split
    · split
      · rcases sv.clients.get? i with _ | (_ | _ | _ | _ | _) <;> rfl
      · rfl
    · rfl
  | write s j =>
    simp only [clientAfter, whoNext]
    split
    · rcases sv.clients.get? i with _ | (_ | _ | _ | _ | _) <;> try rfl
      rename_i t w sent
      simp only
      split <;> rfl
    · rfl
  | _ => rfl

theorem run_who {cfg : Cfg} {h : List (Act T I A V × Reply)} {sv : Server T I A V} (hr : Run cfg h sv) (i : I) :
    (sv.clients.get? i).map Client.who = whoIs h i := by
  induction hr with
  | init => rfl
  | step hr hs ih => rw [who_step (run_inv hr).1 hs i, whoIs_snoc, ih]

theorem named_step {cfg : Cfg} {sv sv' : Server T I A V} {act : Act T I A V} {r : Reply} (hinv : EdgeInv sv)
    (h : step cfg sv act = some (sv', r)) (i : I) :
    i ∈ sv'.used ↔ i ∈ sv.used ∨ (r = .complete ∧ newId act = some i) := by
  rw [used_step hinv h]
  cases act with
  | subscribe j t => simp only [step] at h; split at h <;> cases h; simp [usedAfter, newId, eq_comm (a := i), or_comm]
  | publish j t => simp only [step] at h; split at h <;> cases h; simp [usedAfter, newId, eq_comm (a := i), or_comm]
  | openSession j => simp only [step] at h; split at h <;> cases h; simp [usedAfter, newId, eq_comm (a := i), or_comm]
  | openProcess j => simp only [step] at h; split at h <;> cases h; simp [usedAfter, newId, eq_comm (a := i), or_comm]
  | request j u ok => simp only [step] at h; split at h <;> cases h; simp [usedAfter, newId, eq_comm (a := i), or_comm]
  | watchSettings j t => simp only [step] at h; split at h <;> cases h; simp [usedAfter, newId, eq_comm (a := i), or_comm]
  | watchTopology j t => simp only [step] at h; split at h <;> cases h; simp [usedAfter, newId, eq_comm (a := i), or_comm]
  | channel j p =>
    simp only [step] at h; split at h
    · cases h
    · split at h
      · rename_i hp; cases h; simp [usedAfter, newId, hp, eq_comm (a := i), or_comm]
      · rename_i hp; cases h
        simp [usedAfter]
  | _ => simp [usedAfter, newId]

theorem run_named {cfg : Cfg} {h : List (Act T I A V × Reply)} {sv : Server T I A V} (hr : Run cfg h sv) (i : I) :
    i ∈ sv.used ↔ Named h i := by
  induction hr with
  | init => simp [init, Named]
  | step hr hs ih => rw [named_step (run_inv hr).1 hs i, named_snoc, ih]

theorem sessionInfo_isSome {cfg : Cfg} {h : List (Act T I A V × Reply)} {sv : Server T I A V} (hr : Run cfg h sv) (s : I) :
    (∃ x, sessionInfo sv s = some x) ↔ whoIs h s = some .session := by
  rw [← run_who hr s]
  unfold sessionInfo
  rcases sv.clients.get? s with _ | (_ | _ | _ | _ | _) <;> simp [Client.who]

theorem processInfo_isSome {cfg : Cfg} {h : List (Act T I A V × Reply)} {sv : Server T I A V} (hr : Run cfg h sv) (p : I) :
    (∃ x, processInfo sv p = some x) ↔ whoIs h p = some .process := by
  rw [← run_who hr p]
  unfold processInfo
  rcases sv.clients.get? p with _ | (_ | _ | _ | _ | _) <;> simp [Client.who]

/-! ## Theorems -/

/-- **C124 (everybody is served).** After any history a step from outside is taken exactly when the one who asks is
connected for it, and new ids are new: no session or process that is connected is ever turned away or kept waiting, and
nobody is served who is not, or no longer, connected. -/
theorem C124_served {cfg : Cfg} {h : List (Act T I A V × Reply)} {sv : Server T I A V} (hr : Run cfg h sv)
    (a : Act T I A V) (ha : a.external = true) : (∃ sv' r, step cfg sv a = some (sv', r)) ↔ MayAsk h a := by
  have hs : ∀ s, (∃ x, sessionInfo sv s = some x) ↔ whoIs h s = some .session := sessionInfo_isSome hr
  have hp : ∀ p, (∃ x, processInfo sv p = some x) ↔ whoIs h p = some .process := processInfo_isSome hr
  cases a with
  | gone i =>
    simp only [step, MayAsk, ← run_who hr i]
    rcases sv.clients.get? i with _ | (_ | _ | _ | _ | _) <;> simp [Client.who]
  | channel i p =>
    simp only [step, MayAsk, ← run_named hr]
    split
    · simp_all
    · rename_i hi
      simp only [hi, not_false_eq_true, iff_true]
      split <;> exact ⟨_, _, rfl⟩
  | sessionConnect s a b =>
    simp only [step, MayAsk, ← hs s]; split <;> simp_all <;> exact ⟨_, _, rfl⟩
  | sessionDisconnect s a b => simp only [step, MayAsk, ← hs s]; split <;> simp_all <;> exact ⟨_, _, rfl⟩
  | sessionClear s => simp only [step, MayAsk, ← hs s]; split <;> simp_all
  | sessionGone s => simp only [step, MayAsk, ← hs s]; split <;> simp_all
  | sessionRegister s md =>
    simp only [step, MayAsk, ← hs s]
    split
    · split <;> simp_all
      exact ⟨_, _, rfl⟩
    · simp_all
  | registerProcess p us => simp only [step, MayAsk, ← hp p]; split <;> simp_all <;> exact ⟨_, _, rfl⟩
  | updateOwnership p us rs => simp only [step, MayAsk, ← hp p]; split <;> simp_all <;> exact ⟨_, _, rfl⟩
  | updateSettings p b v => simp only [step, MayAsk, ← hp p]; split <;> simp_all <;> exact ⟨_, _, rfl⟩
  | processGone p => simp only [step, MayAsk, ← hp p]; split <;> simp_all
  | response p b v => simp only [step, MayAsk, ← hp p]; split <;> simp_all
  | timeout r => cases ha
  | resume r => cases ha
  | notify r => cases ha
  | write s j => cases ha
  | connect a b => simp only [step, MayAsk, iff_true]; exact ⟨_, _, rfl⟩
  | disconnect a b => simp only [step, MayAsk, iff_true]; exact ⟨_, _, rfl⟩
  | sendSettings i => simp only [step, MayAsk, iff_true]; exact ⟨_, _, rfl⟩
  | sendTopology i => simp only [step, MayAsk, iff_true]; exact ⟨_, _, rfl⟩
  | unwatchSettings i => simp only [step, MayAsk, iff_true]; exact ⟨_, _, rfl⟩
  | unwatchTopology i => simp only [step, MayAsk, iff_true]; exact ⟨_, _, rfl⟩
  | _ => simp only [step, MayAsk, ← run_named hr]; split <;> simp_all

theorem wouldLoop_iff {cfg : Cfg} {h : List (Act T I A V × Reply)} {sv : Server T I A V} (hr : Run cfg h sv) (a b : T)
    (o : Option I) : (sv.graph.addEdge a b o).2 = .cyclic ↔ WouldLoop h a b := by
  have hinv := (run_inv hr).1.graph
  rw [(DAG.addEdge_spec hinv a b o).2.1]
  unfold WouldLoop
  rw [Path.congr (F := fun x y => ∃ o, MadeBy h x y o)]
  intro x y
  rw [← (C11_connections_are_those_made hr x y).2, connected_iff_E hinv]

theorem connect_reply {cfg : Cfg} {h : List (Act T I A V × Reply)} {sv : Server T I A V} (hr : Run cfg h sv) (a b : T)
    (o : Option I) : (WouldLoop h a b ∧ (connect cfg sv a b o).2 = .cyclic) ∨
      (¬ WouldLoop h a b ∧ (connect cfg sv a b o).2 = .complete) := by
  rw [← wouldLoop_iff hr a b o, connect_eq]
  split
  · rename_i hc; exact Or.inl ⟨hc, rfl⟩
  · rename_i hc; exact Or.inr ⟨by rw [hc]; simp, rfl⟩
  · rename_i hc; exact Or.inr ⟨by rw [hc]; simp, rfl⟩

theorem claim_reply {cfg : Cfg} {h : List (Act T I A V × Reply)} {sv : Server T I A V} (hr : Run cfg h sv) (p : I)
    (us : List A) {r : Reply} (h1 : (conflicts sv p us).isEmpty = true → r = .complete)
    (h2 : ¬ (conflicts sv p us).isEmpty = true → r = .error) :
    ((∃ u ∈ us, ∃ q, q ≠ p ∧ Claimed h q u) ∧ r = .error) ∨ ((∀ u ∈ us, ∀ q, q ≠ p → ¬ Claimed h q u) ∧ r = .complete) := by
  have key := conflicts_iff (sv := sv) p us (fun p q u => C29_at_most_one_owner hr p q u)
  simp only [run_claimed hr] at key
  by_cases hc : (conflicts sv p us).isEmpty = true
  · right
    exact ⟨fun u hu q hq hcl => hq (key.1 hc u hu q hcl), h1 hc⟩
  · left
    refine ⟨?_, h2 hc⟩
    by_cases hex : ∃ u ∈ us, ∃ q, q ≠ p ∧ Claimed h q u
    · exact hex
    · refine absurd (key.2 ?_) hc
      intro u hu q hq
      by_cases e : q = p
      · exact e
      · exact absurd ⟨u, hu, q, e, hq⟩ hex

/-- **C124 (answers).** The answer to every step is determined by what happened before: a connection is refused exactly
when it would close a loop, a channel exactly when the publisher is not there, a registration of components exactly when
another session has one of them, a claim of units exactly when another process has one of them, a report of settings
exactly when the process does not have the unit; everything else is answered with success. -/
theorem C124_answers {cfg : Cfg} {h : List (Act T I A V × Reply)} {sv sv' : Server T I A V} (hr : Run cfg h sv)
    {a : Act T I A V} {r : Reply} (hs : step cfg sv a = some (sv', r)) : Answer h a r := by
  have hinv := (run_inv hr).1
  cases a with
  | connect a b =>
    simp only [step, Option.some.injEq] at hs
    have := connect_reply (cfg := cfg) hr a b none
    rw [hs] at this; exact this
  | sessionConnect s a b =>
    simp only [step] at hs; split at hs
    · simp only [Option.some.injEq] at hs
      have := connect_reply (cfg := cfg) hr a b (some s)
      rw [hs] at this; exact this
    · cases hs
  | disconnect a b => simp only [step, disconnect_eq] at hs; cases hs; rfl
  | sessionDisconnect s a b => simp only [step, disconnect_eq] at hs; split at hs <;> cases hs; rfl
  | channel i p =>
    simp only [step] at hs
    split at hs
    · cases hs
    · split at hs
      · rename_i t hp; cases hs
        exact Or.inl ⟨⟨t, by rw [← run_who hr, hp]; rfl⟩, rfl⟩
      · rename_i hp; cases hs
        refine Or.inr ⟨?_, rfl⟩
        intro t ht
        rw [← run_who hr] at ht
        rcases hc : sv.clients.get? p with _ | (_ | _ | _ | _ | _)
        · rw [hc] at ht; simp at ht
        · exact hp _ hc
        all_goals (rw [hc] at ht; simp [Client.who] at ht)
  | registerProcess p us =>
    simp only [step, registerProcess] at hs
    split at hs
    · rename_i x hx
      rw [hx] at hs
      simp only at hs
      split at hs
      · rename_i hc; cases hs; exact claim_reply hr p us (fun _ => rfl) (fun h => absurd hc h)
      · rename_i hc; cases hs; exact claim_reply hr p us (fun h => absurd h hc) (fun _ => rfl)
    · cases hs
  | updateOwnership p us rs =>
    simp only [step, updateOwnership] at hs
    split at hs
    · rename_i x hx
      rw [hx] at hs
      simp only at hs
      split at hs
      · rename_i hc; cases hs; exact claim_reply hr p us (fun _ => rfl) (fun h => absurd hc h)
      · rename_i hc; cases hs; exact claim_reply hr p us (fun h => absurd h hc) (fun _ => rfl)
    · cases hs
  | updateSettings p a v =>
    simp only [step, updateSettings] at hs
    split at hs
    · rename_i us hx
      rw [hx] at hs
      have hown : OwnsUnit sv p a ↔ a ∈ us := by
        rw [ownsUnit_iff hinv.nodup, processInfo_some.1 hx]
        simp
      rw [run_claimed hr] at hown
      simp only at hs
      split at hs
      · rename_i hc; cases hs; exact Or.inr ⟨fun h => hc (hown.1 h), rfl⟩
      · rename_i hc; cases hs; exact Or.inl ⟨hown.2 (by simpa using hc), rfl⟩
    · cases hs
  | sessionRegister s md =>
    simp only [step, registerSession] at hs
    split at hs
    · rename_i x hx
      rw [hx] at hs
      split at hs
      · rename_i hmd
        simp only at hs
        split at hs
        · rename_i hc; cases hs
          obtain ⟨a, s', md', h1, h2, h3, h4⟩ := collides_true hinv.nodup hmd hc
          rw [← (run_setInv hr).mdEq] at h2
          exact Or.inl ⟨⟨s', md', a, h1, h2, PyDict.mem_keys.2 h3, PyDict.mem_keys.2 h4⟩, rfl⟩
        · rename_i hc; cases hs
          refine Or.inr ⟨?_, rfl⟩
          intro s' md' a h1 h2 h3 h4
          rw [(run_setInv hr).mdEq] at h2
          exact h1 (collides_false (by simpa using hc) h2 (PyDict.mem_keys.1 h3) (PyDict.mem_keys.1 h4))
      · cases hs
    · cases hs
  | sessionClear s => simp only [step] at hs; split at hs <;> cases hs; rfl
  | sessionGone s => simp only [step] at hs; split at hs <;> cases hs; rfl
  | processGone s => simp only [step] at hs; split at hs <;> cases hs; rfl
  | response s => simp only [step] at hs; split at hs <;> cases hs; rfl
  | gone s => simp only [step] at hs; split at hs <;> cases hs <;> rfl
  | timeout r => simp only [step] at hs; split at hs <;> cases hs; rfl
  | resume r => simp only [step] at hs; split at hs <;> cases hs <;> rfl
  | notify r => simp only [step] at hs; split at hs <;> cases hs <;> rfl
  | write s j =>
    simp only [step] at hs
    split at hs
    · split at hs <;> cases hs; rfl
    · cases hs
  | sendSettings i => simp only [step] at hs; cases hs; rfl
  | sendTopology i => simp only [step] at hs; cases hs; rfl
  | unwatchSettings i => simp only [step] at hs; cases hs; rfl
  | unwatchTopology i => simp only [step] at hs; cases hs; rfl
  | _ => simp only [step] at hs; split at hs <;> cases hs; rfl

/-! ## Examples -/

/-- Two sessions, a process, a publisher; a session and the publisher end. -/
def servedActs : List (Act Nat Nat Nat Nat) :=
  [.openSession 1, .openSession 2, .openProcess 3, .openProcess 4, .publish 5 10, .sessionConnect 1 10 20, .connect 20 30,
    .sessionRegister 1 [(6, 7)], .registerProcess 3 [6, 8], .sessionConnect 2 30 10, .registerProcess 4 [8],
    .sessionRegister 2 [(6, 0)], .channel 9 5, .gone 5, .channel 11 5, .sessionGone 2]

/-- Non-vacuity of C124: a run in which each of the refusals occurs, and what may be asked for afterwards. -/
example : ∃ h sv, Run (T := Nat) (I := Nat) (A := Nat) (V := Nat) ⟨100, 100, 10⟩ h sv ∧
    h.map (·.2) = [.complete, .complete, .complete, .complete, .complete, .complete, .complete, .complete, .complete,
      .cyclic, .error, .error, .complete, .complete, .error, .complete] ∧
    h.map (·.1) = servedActs ∧
    MayAsk h (.sessionClear 1) ∧ ¬ MayAsk h (.sessionClear 2) ∧ MayAsk h (.updateSettings 3 6 1) ∧ ¬ MayAsk h (.gone 5) ∧
    MayAsk h (.gone 9) ∧ MayAsk h (.publish 11 0) ∧ ¬ MayAsk h (.publish 5 0) := by
  have key : (exec ⟨100, 100, 10⟩ servedActs).map (·.1) = some (servedActs.zip
      [.complete, .complete, .complete, .complete, .complete, .complete, .complete, .complete, .complete,
      .cyclic, .error, .error, .complete, .complete, .error, .complete]) := by
    unfold servedActs
    srv_eval
  rw [Option.map_eq_some_iff] at key
  obtain ⟨⟨h, sv⟩, he, k⟩ := key
  refine ⟨h, sv, exec_run he, ?_⟩
  simp only at k
  subst k
  simp [servedActs, MayAsk, whoIs, Named, newId]

end Srv
end Ez
