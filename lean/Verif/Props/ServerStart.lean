import Verif.Model.ServerStart

/-!
# C96: programs find the graph server that runs, or start one

The specification: when `ensure` has returned, a server listens where the caller will look for it; no address has two servers; a server is started only if none is found.
-/

set_option linter.unusedSectionVars false
set_option linter.unusedSimpArgs false

namespace Ez
namespace Start

/-! ## Specification -/

/-- Nobody has a socket yet, and all callers are about to call `ensure`. Sockets of other programs come later (`opened`). -/
def Initial (st : St) : Prop := st.socks = [] ∧ ∀ i, (st.callers i).phase = .connecting

/-- States that runs reach. -/
def Reachable (st : St) : Prop := ∃ st0 as, Initial st0 ∧ run st0 as = some st

/-- A server of this caller listens at the address. -/
def ServedBy (st : St) (i : Nat) (a : Addr) : Prop := ∃ s ∈ st.socks, s.owner = some i ∧ s.addr = a ∧ s.listening = true

/-- Somebody listens at the address. -/
def Served (st : St) (a : Addr) : Prop := ∃ s ∈ st.socks, s.addr = a ∧ s.listening = true

/-- The call has ended. -/
def Phase.ended : Phase → Bool
  | .up _ | .found | .refused | .noSocket | .stopped => true
  | _ => false

/-! ## Lemmas -/

theorem listens_iff (st : St) (a : Addr) : listens st.socks a = true ↔ Served st a := by
  simp [listens, Served]

theorem to_self (st : St) (i : Nat) (p : Phase) : ((st.to i p).callers i) = { st.callers i with phase := p } := by simp [St.to]

theorem to_other (st : St) {i j : Nat} (p : Phase) (h : j ≠ i) : (st.to i p).callers j = st.callers j := by simp [St.to, h]

theorem to_socks (st : St) (i : Nat) (p : Phase) : (st.to i p).socks = st.socks := rfl

/-- Sockets that may be there together. -/
def Apart (s t : Sock) : Prop := ¬ (s.addr = t.addr ∧ s.listening = true ∧ t.listening = true) ∧ (s.owner ≠ none → s.owner ≠ t.owner)

/-- What a caller's phase says about its address. -/
def Caller.Right (c : Caller) : Prop :=
  match c.phase with
  | .binding a => c.address = some a
  | .scanning p => c.address = none ∧ c.env.start ≤ p
  | .bound a | .up a => c.address = some a ∨ c.address = none ∧ a.1 = defaultAddr.1 ∧ a.2 ≠ defaultAddr.2 ∧ c.env.start ≤ a.2 ∧ a.2 ≤ 65535
  | _ => True

/-- What all steps keep. -/
structure Inv (st : St) : Prop where
  apart : st.socks.Pairwise Apart
  own : ∀ s ∈ st.socks, ∀ i, s.owner = some i → ((st.callers i).phase = .bound s.addr ∧ s.listening = false) ∨
    ((st.callers i).phase = .failed ∧ s.listening = false) ∨ ((st.callers i).phase = .up s.addr ∧ s.listening = true)
  bound : ∀ i a, (st.callers i).phase = .bound a → ∃ s ∈ st.socks, s.owner = some i ∧ s.addr = a
  up : ∀ i a, (st.callers i).phase = .up a → ∃ s ∈ st.socks, s.owner = some i ∧ s.addr = a
  right : ∀ i, (st.callers i).Right

theorem initial_inv {st : St} (h : Initial st) : Inv st := by
  obtain ⟨h1, h2⟩ := h
  exact ⟨by simp [h1], by simp [h1], by simp [h2], by simp [h2], by simp [Caller.Right, h2]⟩

/-- A caller without socket changes its phase. -/
theorem Inv.to {st : St} (h : Inv st) {i : Nat} {p : Phase} (hs : ∀ s ∈ st.socks, s.owner ≠ some i) (hb : ∀ a, p ≠ .bound a) (hu : ∀ a, p ≠ .up a)
    (hr : Caller.Right { st.callers i with phase := p }) : Inv (st.to i p) := by
  constructor
  · exact h.apart
  · intro s hm j hj
    have : j ≠ i := by rintro rfl; exact hs s hm hj
    rw [to_other st p this]
    exact h.own s hm j hj
  · intro j a hj
    by_cases e : j = i
    · subst e; rw [to_self] at hj; exact absurd hj (hb a)
    · rw [to_other st p e] at hj; exact h.bound j a hj
  · intro j a hj
    by_cases e : j = i
    · subst e; rw [to_self] at hj; exact absurd hj (hu a)
    · rw [to_other st p e] at hj; exact h.up j a hj
  · intro j
    by_cases e : j = i
    · subst e; rw [to_self]; exact hr
    · rw [to_other st p e]; exact h.right j

/-- A caller without socket gets one. -/
theorem Inv.bindSock {st : St} (h : Inv st) {i : Nat} {a : Addr} {reuse : Bool} (hs : ∀ s ∈ st.socks, s.owner ≠ some i)
    (hr : Caller.Right { st.callers i with phase := .bound a }) : Inv ({ st with socks := ⟨a, reuse, false, some i⟩ :: st.socks }.to i (.bound a)) := by
  constructor
  · refine List.pairwise_cons.2 ⟨?_, h.apart⟩
    intro t ht
    exact ⟨by simp, fun _ e => hs t ht e.symm⟩
  · intro s hm j hj
    rcases List.mem_cons.1 hm with rfl | hm'
    · cases hj; rw [to_self]; exact .inl ⟨rfl, rfl⟩
    · have : j ≠ i := by rintro rfl; exact hs s hm' hj
      rw [to_other _ _ this]
      exact h.own s hm' j hj
  · intro j b hj
    by_cases e : j = i
    · subst e; rw [to_self] at hj; cases hj; exact ⟨_, List.mem_cons_self, rfl, rfl⟩
    · rw [to_other _ _ e] at hj
      obtain ⟨s, hm, h1⟩ := h.bound j b hj
      exact ⟨s, List.mem_cons_of_mem _ hm, h1⟩
  · intro j b hj
    by_cases e : j = i
    · subst e; rw [to_self] at hj; cases hj
    · rw [to_other _ _ e] at hj
      obtain ⟨s, hm, h1⟩ := h.up j b hj
      exact ⟨s, List.mem_cons_of_mem _ hm, h1⟩
  · intro j
    by_cases e : j = i
    · subst e; rw [to_self]; exact hr
    · rw [to_other _ _ e]; exact h.right j

theorem Inv.no_sock {st : St} (h : Inv st) {i : Nat} (hb : ∀ a, (st.callers i).phase ≠ .bound a) (hu : ∀ a, (st.callers i).phase ≠ .up a)
    (hf : (st.callers i).phase ≠ .failed) : ∀ s ∈ st.socks, s.owner ≠ some i := by
  intro s hm e
  rcases h.own s hm i e with ⟨h1, _⟩ | ⟨h1, _⟩ | ⟨h1, _⟩
  · exact hb _ h1
  · exact hf h1
  · exact hu _ h1

theorem pairwise_mem {R : Sock → Sock → Prop} {l : List Sock} (h : l.Pairwise R) {s t : Sock} (hs : s ∈ l) (ht : t ∈ l) (hne : s ≠ t) :
    R s t ∨ R t s := by
  induction h with
  | nil => cases hs
  | @cons x l hx _ ih =>
    rcases List.mem_cons.1 hs with e | hs <;> rcases List.mem_cons.1 ht with e' | ht
    · exact absurd (e.trans e'.symm) hne
    · rw [e]; exact .inl (hx _ ht)
    · rw [e']; exact .inr (hx _ hs)
    · exact ih hs ht

theorem next_inv {st st' : St} {i : Nat} (h : Inv st) (hs : next st i = some st') : Inv st' := by
  have hR := h.right i
  unfold next at hs
  cases hp : (st.callers i).phase with
  | connecting =>
    have hn := h.no_sock (i := i) (by simp [hp]) (by simp [hp]) (by simp [hp])
    simp only [hp] at hs
    split at hs
    · cases hs; exact h.to hn (by simp) (by simp) (by simp [Caller.Right])
    · split at hs
      · cases hs
        cases ha : (st.callers i).address with
        | some a => exact h.to hn (by simp) (by simp) (by simp [Caller.Right, ha])
        | none => exact h.to hn (by simp) (by simp) (by simp [Caller.Right, ha])
      · cases hs; exact h.to hn (by simp) (by simp) (by simp [Caller.Right])
  | binding a =>
    have hn := h.no_sock (i := i) (by simp [hp]) (by simp [hp]) (by simp [hp])
    simp only [Caller.Right, hp] at hR
    simp only [hp] at hs
    split at hs
    · cases hs; exact h.bindSock hn (by simp [Caller.Right, hR])
    · cases hs; exact h.to hn (by simp) (by simp) (by simp [Caller.Right])
  | scanning p =>
    have hn := h.no_sock (i := i) (by simp [hp]) (by simp [hp]) (by simp [hp])
    simp only [Caller.Right, hp] at hR
    simp only [hp] at hs
    split at hs
    · cases hs; exact h.to hn (by simp) (by simp) (by simp [Caller.Right])
    · rename_i h1
      split at hs
      · cases hs; exact h.to hn (by simp) (by simp) (by simp only [Caller.Right]; exact ⟨hR.1, by omega⟩)
      · rename_i h2
        split at hs
        · cases hs; exact h.bindSock hn (.inr ⟨hR.1, rfl, h2, hR.2, by show p ≤ 65535; omega⟩)
        · cases hs; exact h.to hn (by simp) (by simp) (by simp only [Caller.Right]; exact ⟨hR.1, by omega⟩)
  | bound a =>
    simp only [Caller.Right, hp] at hR
    simp only [hp] at hs
    split at hs
    · cases hs
      constructor
      · exact h.apart
      · intro s hm j hj
        by_cases e : j = i
        · subst e
          rw [to_self]
          rcases h.own s hm j hj with ⟨_, h2⟩ | ⟨_, h2⟩ | ⟨h1, _⟩
          · exact .inr (.inl ⟨rfl, h2⟩)
          · exact .inr (.inl ⟨rfl, h2⟩)
          · rw [hp] at h1; cases h1
        · rw [to_other _ _ e]; exact h.own s hm j hj
      · intro j b hj
        by_cases e : j = i
        · subst e; rw [to_self] at hj; cases hj
        · rw [to_other _ _ e] at hj; exact h.bound j b hj
      · intro j b hj
        by_cases e : j = i
        · subst e; rw [to_self] at hj; cases hj
        · rw [to_other _ _ e] at hj; exact h.up j b hj
      · intro j
        by_cases e : j = i
        · subst e; rw [to_self]; simp [Caller.Right]
        · rw [to_other _ _ e]; exact h.right j
    · rename_i hl
      cases hs
      have hl' : ∀ s ∈ st.socks, s.addr = a → s.listening = false := by
        intro s hm ha
        cases hb : s.listening with
        | false => rfl
        | true => exact absurd ((listens_iff st a).2 ⟨s, hm, ha, hb⟩) hl
      let g : Sock → Sock := fun s => if s.owner = some i ∧ s.addr = a then { s with listening := true } else s
      have ga : ∀ s, (g s).addr = s.addr := by intro s; simp only [g]; split <;> rfl
      have go : ∀ s, (g s).owner = s.owner := by intro s; simp only [g]; split <;> rfl
      constructor
      · show (st.socks.map g).Pairwise Apart
        rw [List.pairwise_map]
        refine List.Pairwise.imp_of_mem ?_ h.apart
        intro s t hs ht hst
        refine ⟨?_, by rw [go, go]; exact hst.2⟩
        rintro ⟨e1, e2, e3⟩
        rw [ga, ga] at e1
        by_cases c1 : s.owner = some i ∧ s.addr = a
        · by_cases c2 : t.owner = some i ∧ t.addr = a
          · exact hst.2 (by simp [c1.1]) (c1.1.trans c2.1.symm)
          · have : (g t).listening = t.listening := by simp only [g, if_neg c2]
            rw [this, hl' t ht (e1 ▸ c1.2)] at e3
            cases e3
        · have es : (g s).listening = s.listening := by simp only [g, if_neg c1]
          rw [es] at e2
          by_cases c2 : t.owner = some i ∧ t.addr = a
          · rw [hl' s hs (e1.trans c2.2)] at e2; cases e2
          · have : (g t).listening = t.listening := by simp only [g, if_neg c2]
            rw [this] at e3
            exact hst.1 ⟨e1, e2, e3⟩
      · intro s' hm j hj
        obtain ⟨s, hm', rfl⟩ := List.mem_map.1 (show s' ∈ st.socks.map g from hm)
        rw [go] at hj
        rw [ga]
        by_cases e : j = i
        · subst e
          rw [to_self]
          have := h.own s hm' j hj
          rw [hp] at this
          rcases this with ⟨h1, _⟩ | ⟨h1, _⟩ | ⟨h1, _⟩
          · cases h1
            exact .inr (.inr ⟨rfl, by simp [g, hj]⟩)
          · cases h1
          · cases h1
        · rw [to_other _ _ e]
          have eg : (g s).listening = s.listening := by
            simp only [g]; rw [if_neg]; rintro ⟨h1, _⟩; rw [hj] at h1; cases h1; exact e rfl
          rw [eg]
          exact h.own s hm' j hj
      · intro j b hj
        by_cases e : j = i
        · subst e; rw [to_self] at hj; cases hj
        · rw [to_other _ _ e] at hj
          obtain ⟨s, hm, h1, h2⟩ := h.bound j b hj
          exact ⟨g s, List.mem_map.2 ⟨s, hm, rfl⟩, by rw [go]; exact h1, by rw [ga]; exact h2⟩
      · intro j b hj
        by_cases e : j = i
        · subst e; rw [to_self] at hj
          have hj' : Phase.up a = Phase.up b := hj
          cases hj'
          obtain ⟨s, hm, h1, h2⟩ := h.bound j a hp
          exact ⟨g s, List.mem_map.2 ⟨s, hm, rfl⟩, by rw [go]; exact h1, by rw [ga]; exact h2⟩
        · rw [to_other _ _ e] at hj
          obtain ⟨s, hm, h1, h2⟩ := h.up j b hj
          exact ⟨g s, List.mem_map.2 ⟨s, hm, rfl⟩, by rw [go]; exact h1, by rw [ga]; exact h2⟩
      · intro j
        by_cases e : j = i
        · subst e; rw [to_self]; simpa [Caller.Right] using hR
        · rw [to_other _ _ e]; exact h.right j
  | _ => simp only [hp] at hs; cases hs

theorem step_inv {st st' : St} {a : Act} (h : Inv st) (hs : step st a = some st') : Inv st' := by
  cases a with
  | next i => exact next_inv h hs
  | stop i =>
    simp only [step] at hs
    split at hs
    · rename_i a hp
      cases hs
      constructor
      · exact h.apart.filter _
      · intro s hm j hj
        obtain ⟨hm, h1⟩ := List.mem_filter.1 hm
        have : j ≠ i := by rintro rfl; simp [hj] at h1
        rw [to_other _ _ this]
        exact h.own s hm j hj
      · intro j b hj
        by_cases e : j = i
        · subst e; rw [to_self] at hj; cases hj
        · rw [to_other _ _ e] at hj
          obtain ⟨s, hm, h1, h2⟩ := h.bound j b hj
          exact ⟨s, List.mem_filter.2 ⟨hm, by simp [h1, e]⟩, h1, h2⟩
      · intro j b hj
        by_cases e : j = i
        · subst e; rw [to_self] at hj; cases hj
        · rw [to_other _ _ e] at hj
          obtain ⟨s, hm, h1, h2⟩ := h.up j b hj
          exact ⟨s, List.mem_filter.2 ⟨hm, by simp [h1, e]⟩, h1, h2⟩
      · intro j
        by_cases e : j = i
        · subst e; rw [to_self]; simp [Caller.Right]
        · rw [to_other _ _ e]; exact h.right j
    · cases hs
  | opened s =>
    simp only [step] at hs
    split at hs
    · rename_i hc
      cases hs
      obtain ⟨h1, h2, h3⟩ := hc
      constructor
      · refine List.pairwise_cons.2 ⟨?_, h.apart⟩
        intro t ht
        refine ⟨?_, by simp [h1]⟩
        rintro ⟨e1, e2, e3⟩
        have := (listens_iff st s.addr).2 ⟨t, ht, e1.symm, e3⟩
        rw [h3 e2] at this
        cases this
      · intro t ht j hj
        rcases List.mem_cons.1 ht with rfl | ht
        · rw [h1] at hj; cases hj
        · exact h.own t ht j hj
      · intro j b hj
        obtain ⟨t, ht, h4⟩ := h.bound j b hj
        exact ⟨t, List.mem_cons_of_mem _ ht, h4⟩
      · intro j b hj
        obtain ⟨t, ht, h4⟩ := h.up j b hj
        exact ⟨t, List.mem_cons_of_mem _ ht, h4⟩
      · exact h.right
    · cases hs
  | closed s =>
    simp only [step] at hs
    split at hs
    · rename_i hc
      cases hs
      constructor
      · exact h.apart.filter _
      · intro t ht j hj
        exact h.own t (List.mem_filter.1 ht).1 j hj
      · intro j b hj
        obtain ⟨t, ht, h1, h2⟩ := h.bound j b hj
        exact ⟨t, List.mem_filter.2 ⟨ht, by simp; rintro rfl; rw [hc] at h1; cases h1⟩, h1, h2⟩
      · intro j b hj
        obtain ⟨t, ht, h1, h2⟩ := h.up j b hj
        exact ⟨t, List.mem_filter.2 ⟨ht, by simp; rintro rfl; rw [hc] at h1; cases h1⟩, h1, h2⟩
      · exact h.right
    · cases hs

theorem run_inv {st st' : St} {as : List Act} (h : Inv st) (hs : run st as = some st') : Inv st' := by
  induction as generalizing st with
  | nil => cases hs; exact h
  | cons a as ih =>
    simp only [run] at hs
    split at hs
    · rename_i s1 e; exact ih (step_inv h e) hs
    · cases hs

theorem reachable_inv {st : St} (h : Reachable st) : Inv st := by
  obtain ⟨st0, as, h0, h1⟩ := h
  exact run_inv (initial_inv h0) h1

/-! ## Theorems -/

/-- C96: when `ensure` has returned a server, that server listens, at the address the caller was given if there was one, else at a port of its own, not below the first
one; until it is stopped. -/
theorem C96_listens {st : St} (h : Reachable st) {i : Nat} {a : Addr} (hu : (st.callers i).phase = .up a) :
    ServedBy st i a ∧ (∀ b, (st.callers i).address = some b → a = b) ∧
      ((st.callers i).address = none → a.1 = "127.0.0.1" ∧ (st.callers i).env.start ≤ a.2 ∧ a.2 ≤ 65535) := by
  have hi := reachable_inv h
  obtain ⟨s, hm, h1, h2⟩ := hi.up i a hu
  have hr := hi.right i
  simp only [Caller.Right, hu] at hr
  refine ⟨⟨s, hm, h1, h2, ?_⟩, ?_, ?_⟩
  · rcases hi.own s hm i h1 with ⟨h3, _⟩ | ⟨h3, _⟩ | ⟨_, h3⟩
    · rw [hu] at h3; cases h3
    · rw [hu] at h3; cases h3
    · exact h3
  · intro b hb
    rcases hr with hr | ⟨hr, _⟩ <;> rw [hb] at hr <;> cases hr
    rfl
  · intro hn
    rcases hr with hr | ⟨_, h3, _, h4, h5⟩
    · rw [hn] at hr; cases hr
    · exact ⟨h3, h4, h5⟩

/-- C96: a caller that has stopped its server, or has none, has no socket. -/
theorem C96_gone {st : St} (h : Reachable st) {i : Nat} (hp : (st.callers i).phase = .stopped ∨ (st.callers i).phase = .found ∨
    (st.callers i).phase = .refused ∨ (st.callers i).phase = .noSocket) {s : Sock} (hs : s ∈ st.socks) : s.owner ≠ some i := by
  refine (reachable_inv h).no_sock ?_ ?_ ?_ s hs <;> rcases hp with hp | hp | hp | hp <;> simp [hp]

/-- C96: no address has two servers. -/
theorem C96_one_server {st : St} (h : Reachable st) {s t : Sock} (hs : s ∈ st.socks) (ht : t ∈ st.socks) (ha : s.addr = t.addr)
    (hls : s.listening = true) (hlt : t.listening = true) : s = t := by
  by_cases e : s = t
  · exact e
  · rcases pairwise_mem (reachable_inv h).apart hs ht e with h1 | h1
    · exact absurd ⟨ha, hls, hlt⟩ h1.1
    · exact absurd ⟨ha.symm, hlt, hls⟩ h1.1

/-- C96: so servers of two callers are at two addresses. -/
theorem C96_apart {st : St} (h : Reachable st) {i j : Nat} {a : Addr} (hi : (st.callers i).phase = .up a) (hj : (st.callers j).phase = .up a) : i = j := by
  obtain ⟨s, hs, h1, h2, h3⟩ := (C96_listens h hi).1
  obtain ⟨t, ht, h4, h5, h6⟩ := (C96_listens h hj).1
  have := C96_one_server h hs ht (h2.trans h5.symm) h3 h6
  subst this
  rw [h1] at h4
  exact Option.some.inj h4

/-- C96: a server that runs is used; otherwise a server is started, if `auto_start` says so, or says nothing and neither an address was given nor one is set in the
environment; otherwise `ensure` raises. -/
theorem C96_decides (st : St) {i : Nat} (hp : (st.callers i).phase = .connecting) :
    ∃ st', step st (.next i) = some st' ∧ st'.socks = st.socks ∧
      ((st'.callers i).phase = .found ↔ Served st ((st.callers i).address.getD ((st.callers i).env.addr.getD ("127.0.0.1", 25978)))) ∧
      ((st'.callers i).phase = .refused ↔ ¬ Served st ((st.callers i).address.getD ((st.callers i).env.addr.getD ("127.0.0.1", 25978))) ∧
        ((st.callers i).auto = some false ∨ (st.callers i).auto = none ∧ ((st.callers i).address ≠ none ∨ (st.callers i).env.addr ≠ none))) := by
  refine ⟨_, (by simp only [step, next, hp]; rfl), ?_⟩
  rw [← listens_iff]
  change (_ ∧ (_ ↔ listens st.socks (st.callers i).target = true) ∧ (_ ↔ ¬ listens st.socks (st.callers i).target = true ∧ _))
  by_cases hl : listens st.socks (st.callers i).target = true
  · simp [hl, to_self, to_socks]
  · have hm : (st.callers i).mayStart = true ↔
        ¬ ((st.callers i).auto = some false ∨ (st.callers i).auto = none ∧ ((st.callers i).address ≠ none ∨ (st.callers i).env.addr ≠ none)) := by
      unfold Caller.mayStart
      cases (st.callers i).auto with
      | some b => cases b <;> simp
      | none => cases (st.callers i).address <;> cases (st.callers i).env.addr <;> simp
    by_cases hc : (st.callers i).mayStart = true
    · have := hm.1 hc
      cases ha : (st.callers i).address <;> simp [hl, hc, to_self, to_socks, ha] <;> simpa [ha] using this
    · have : (st.callers i).auto = some false ∨ (st.callers i).auto = none ∧ ((st.callers i).address ≠ none ∨ (st.callers i).env.addr ≠ none) := by
        by_cases hx : (st.callers i).auto = some false ∨ (st.callers i).auto = none ∧ ((st.callers i).address ≠ none ∨ (st.callers i).env.addr ≠ none)
        · exact hx
        · exact absurd (hm.2 hx) hc
      simp [hl, hc, to_self, to_socks, this]

/-- C96: no step but the caller's own and stopping its server changes its phase; its address and environment never change. -/
theorem C96_own_steps {st st' : St} {a : Act} (hs : step st a = some st') (i : Nat) (hn : a ≠ .next i) (hst : a ≠ .stop i) :
    st'.callers i = st.callers i := by
  cases a with
  | next j =>
    have e : i ≠ j := by rintro rfl; exact hn rfl
    simp only [step, next] at hs
    split at hs <;> (try split at hs) <;> (try split at hs) <;> (try split at hs) <;> cases hs <;> simp [St.to, e]
  | stop j =>
    have e : i ≠ j := by rintro rfl; exact hst rfl
    simp only [step] at hs
    split at hs <;> cases hs
    simp [St.to, e]
  | opened s => simp only [step] at hs; split at hs <;> cases hs; rfl
  | closed s => simp only [step] at hs; split at hs <;> cases hs; rfl

theorem scan : ∀ (n : Nat) (st : St) (i p q : Nat), q - p ≤ n → p ≤ q → q ≤ 65535 → q ≠ 25978 → (st.callers i).phase = .scanning p →
    (∀ s ∈ st.socks, s.addr ≠ ("127.0.0.1", q)) → (∀ r, p ≤ r → r < q → r ≠ 25978 → ∃ s ∈ st.socks, s.addr = ("127.0.0.1", r)) →
    ∃ as st', (∀ a ∈ as, a = .next i) ∧ run st as = some st' ∧ (st'.callers i).phase = .up ("127.0.0.1", q) := by
  intro n
  induction n with
  | zero =>
    intro st i p q h1 h2 h3 h4 hp hf _
    have : p = q := by omega
    subst this
    have hc : canBind st.socks (defaultAddr.1, p) false = true := by
      simp only [canBind, List.all_eq_true, Bool.or_eq_true, bne_iff_ne, ne_eq]
      intro s hs; exact .inl (hf s hs)
    have e1 : step st (.next i) = some ({ st with socks := ⟨(defaultAddr.1, p), false, false, some i⟩ :: st.socks }.to i (.bound (defaultAddr.1, p))) := by
      have : ¬ 65535 < p := by omega
      have h4' : ¬ p = defaultAddr.2 := h4
      simp only [step, next, hp, if_neg this, if_neg h4', if_pos hc]
    have hl : listens ({ st with socks := ⟨(defaultAddr.1, p), false, false, some i⟩ :: st.socks }.to i (.bound (defaultAddr.1, p))).socks (defaultAddr.1, p) = false := by
      rw [to_socks]
      simp only [listens, List.any_eq_false, List.mem_cons, Bool.and_eq_true, beq_iff_eq, not_and]
      rintro s (rfl | hs)
      · simp
      · intro e; exact absurd e (hf s hs)
    have e2 : ∃ st', step ({ st with socks := ⟨(defaultAddr.1, p), false, false, some i⟩ :: st.socks }.to i (.bound (defaultAddr.1, p))) (.next i) = some st' ∧
        (st'.callers i).phase = .up ("127.0.0.1", p) := by
      refine ⟨_, (by simp only [step, next, to_self, hl, Bool.false_eq_true, if_false]; rfl), ?_⟩
      rw [to_self]; rfl
    obtain ⟨st', e2, e3⟩ := e2
    exact ⟨[.next i, .next i], st', by simp, by simp only [run, e1, e2], e3⟩
  | succ n ih =>
    intro st i p q h1 h2 h3 h4 hp hf hb
    by_cases e : p = q
    · subst e
      exact ih st i p p (by omega) (by omega) h3 h4 hp hf hb
    · have e1 : step st (.next i) = some (st.to i (.scanning (p + 1))) := by
        have hn : ¬ 65535 < p := by omega
        by_cases hd : p = defaultAddr.2
        · simp only [step, next, hp, if_neg hn, if_pos hd]
        · have hc : ¬ canBind st.socks (defaultAddr.1, p) false = true := by
            obtain ⟨s, hs, ha⟩ := hb p (by omega) (by omega) hd
            simp only [canBind, List.all_eq_true]
            refine fun h => ?_
            have := h s hs
            rw [ha] at this
            simp [defaultAddr] at this
          simp only [step, next, hp, if_neg hn, if_neg hd, if_neg hc]
      obtain ⟨as, st', g1, g2, g3⟩ := ih (st.to i (.scanning (p + 1))) i (p + 1) q (by omega) (by omega) h3 h4 (by rw [to_self]) hf
        (fun r h5 h6 h7 => hb r (by omega) h6 h7)
      refine ⟨.next i :: as, st', ?_, by simp only [run, e1, g2], g3⟩
      intro a ha
      rcases List.mem_cons.1 ha with rfl | ha
      · rfl
      · exact g1 a ha

/-- C96: a caller without address that nobody disturbs gets the first free port, passing over the default one. -/
theorem C96_first_port (st : St) (i q : Nat) (hp : (st.callers i).phase = .connecting) (ha : (st.callers i).address = none)
    (hm : (st.callers i).auto = some true ∨ (st.callers i).auto = none ∧ (st.callers i).env.addr = none)
    (hn : ¬ Served st ((st.callers i).env.addr.getD ("127.0.0.1", 25978)))
    (hq : (st.callers i).env.start ≤ q) (hq' : q ≤ 65535) (hd : q ≠ 25978) (hfree : ∀ s ∈ st.socks, s.addr ≠ ("127.0.0.1", q))
    (hb : ∀ r, (st.callers i).env.start ≤ r → r < q → r ≠ 25978 → ∃ s ∈ st.socks, s.addr = ("127.0.0.1", r)) :
    ∃ as st', (∀ a ∈ as, a = .next i) ∧ run st as = some st' ∧ (st'.callers i).phase = .up ("127.0.0.1", q) := by
  have e : step st (.next i) = some (st.to i (.scanning (st.callers i).env.start)) := by
    have hl : ¬ listens st.socks (st.callers i).target = true := by
      rw [listens_iff]; unfold Caller.target; rw [ha]; exact hn
    have hms : (st.callers i).mayStart = true := by
      unfold Caller.mayStart
      rcases hm with h | ⟨h1, h2⟩
      · rw [h]
      · rw [h1, ha, h2]; rfl
    simp only [step, next, hp, if_neg hl, if_pos hms, ha]
  obtain ⟨as, st', g1, g2, g3⟩ := scan _ (st.to i (.scanning (st.callers i).env.start)) i _ q (Nat.le_refl _) hq hq' hd (by rw [to_self]) hfree hb
  refine ⟨.next i :: as, st', ?_, by simp only [run, e, g2], g3⟩
  intro a ha
  rcases List.mem_cons.1 ha with rfl | ha
  · rfl
  · exact g1 a ha

/-- Sockets that are bound to one address have `SO_REUSEADDR`; those of callers without address have not. -/
structure Inv2 (st : St) : Prop where
  share : st.socks.Pairwise fun s t => s.addr = t.addr → s.reuse = true ∧ t.reuse = true
  reuse : ∀ s ∈ st.socks, ∀ i, s.owner = some i → (st.callers i).address = none → s.reuse = false
  fine : ∀ i, (st.callers i).address = none → (st.callers i).phase ≠ .failed

theorem to_address (st : St) (i : Nat) (p : Phase) (j : Nat) : ((st.to i p).callers j).address = (st.callers j).address := by
  simp only [St.to]; split <;> rfl

theorem Inv2.to {st : St} (h : Inv2 st) {i : Nat} {p : Phase} (hf : (st.callers i).address = none → p ≠ .failed) : Inv2 (st.to i p) := by
  refine ⟨h.share, ?_, ?_⟩
  · intro s hs j hj ha; rw [to_address] at ha; exact h.reuse s hs j hj ha
  · intro j ha
    rw [to_address] at ha
    by_cases e : j = i
    · subst e; rw [to_self]; exact hf ha
    · rw [to_other _ _ e]; exact h.fine j ha

theorem canBind_iff (ss : List Sock) (a : Addr) (b : Bool) : canBind ss a b = true ↔ ∀ s ∈ ss, s.addr = a → s.reuse = true ∧ b = true ∧ s.listening = false := by
  simp only [canBind, List.all_eq_true, Bool.or_eq_true, bne_iff_ne, ne_eq, Bool.and_eq_true, Bool.not_eq_true']
  constructor
  · intro h s hs e
    rcases h s hs with h | h
    · exact absurd e h
    · exact ⟨h.1.1, h.1.2, h.2⟩
  · intro h s hs
    by_cases e : s.addr = a
    · have := h s hs e; exact .inr ⟨⟨this.1, this.2.1⟩, this.2.2⟩
    · exact .inl e

theorem step_inv2 {st st' : St} {a : Act} (h1 : Inv st) (h : Inv2 st) (hs : step st a = some st') : Inv2 st' := by
  have add : ∀ (s : Sock), canBind st.socks s.addr s.reuse = true → (∀ i, s.owner = some i → (st.callers i).address = none → s.reuse = false) →
      Inv2 { st with socks := s :: st.socks } := by
    intro s hc ho
    refine ⟨List.pairwise_cons.2 ⟨?_, h.share⟩, ?_, h.fine⟩
    · intro t ht e
      have := (canBind_iff _ _ _).1 hc t ht e.symm
      exact ⟨this.2.1, this.1⟩
    · intro t ht j hj ha
      rcases List.mem_cons.1 ht with rfl | ht
      · exact ho j hj ha
      · exact h.reuse t ht j hj ha
  cases a with
  | next i =>
    have hR := h1.right i
    simp only [step, next] at hs
    cases hp : (st.callers i).phase with
    | connecting =>
      simp only [hp] at hs
      split at hs
      · cases hs; exact h.to (by simp)
      · split at hs
        · cases hs; apply h.to; intro ha; simp [ha]
        · cases hs; exact h.to (by simp)
    | binding b =>
      simp only [Caller.Right, hp] at hR
      simp only [hp] at hs
      split at hs
      · rename_i hc
        cases hs
        exact (add ⟨b, true, false, some i⟩ hc (by intro j hj ha; cases hj; rw [hR] at ha; cases ha)).to (by simp)
      · cases hs; exact h.to (by simp)
    | scanning p =>
      simp only [hp] at hs
      split at hs
      · cases hs; exact h.to (by simp)
      · split at hs
        · cases hs; exact h.to (by simp)
        · split at hs
          · rename_i hc
            cases hs
            exact (add ⟨(defaultAddr.1, p), false, false, some i⟩ hc (by intros; rfl)).to (by simp)
          · cases hs; exact h.to (by simp)
    | bound b =>
      simp only [hp] at hs
      split at hs
      · rename_i hl
        cases hs
        apply h.to
        intro ha
        obtain ⟨s, hm, g1, g2⟩ := h1.bound i b hp
        obtain ⟨t, ht, g3, g4⟩ := (listens_iff st b).1 hl
        have hne : s ≠ t := by
          rintro rfl
          rcases h1.own s hm i g1 with ⟨_, g5⟩ | ⟨_, g5⟩ | ⟨g5, _⟩
          · rw [g4] at g5; cases g5
          · rw [g4] at g5; cases g5
          · rw [hp] at g5; cases g5
        have g6 := h.reuse s hm i g1 ha
        rcases pairwise_mem h.share hm ht hne with g | g
        · have := (g (g2.trans g3.symm)).1; rw [g6] at this; cases this
        · have := (g (g3.trans g2.symm)).2; rw [g6] at this; cases this
      · cases hs
        refine Inv2.to ?_ (by simp)
        refine ⟨?_, ?_, fun j => h.fine j⟩
        · show (st.socks.map _).Pairwise _
          rw [List.pairwise_map]
          refine h.share.imp ?_
          intro s t g e
          have q : ∀ s : Sock, (if s.owner = some i ∧ s.addr = b then { s with listening := true } else s).addr = s.addr ∧
              (if s.owner = some i ∧ s.addr = b then { s with listening := true } else s).reuse = s.reuse := by
            intro s; split <;> exact ⟨rfl, rfl⟩
          rw [(q s).1, (q t).1] at e
          rw [(q s).2, (q t).2]
          exact g e
        · intro s' hs' j hj ha
          obtain ⟨s, hs, rfl⟩ := List.mem_map.1 hs'
          have q : (if s.owner = some i ∧ s.addr = b then { s with listening := true } else s).owner = s.owner ∧
              (if s.owner = some i ∧ s.addr = b then { s with listening := true } else s).reuse = s.reuse := by
            split <;> exact ⟨rfl, rfl⟩
          rw [q.1] at hj
          rw [q.2]
          exact h.reuse s hs j hj ha
    | _ => simp only [hp] at hs; cases hs
  | stop i =>
    simp only [step] at hs
    split at hs
    · cases hs
      exact Inv2.to (i := i) (p := .stopped) (st := { socks := _, callers := st.callers }) ⟨h.share.filter _, fun s hs => h.reuse s (List.mem_filter.1 hs).1, h.fine⟩ (by simp)
    · cases hs
  | opened s =>
    simp only [step] at hs
    split at hs
    · rename_i hc
      cases hs
      exact add s hc.2.1 (by intro i hi; rw [hc.1] at hi; cases hi)
    · cases hs
  | closed s =>
    simp only [step] at hs
    split at hs
    · cases hs
      exact ⟨h.share.filter _, fun s hs => h.reuse s (List.mem_filter.1 hs).1, h.fine⟩
    · cases hs

/-- C96: a caller that is given an address, and told to start a server, gets one there if nobody has a socket there and nobody disturbs it. -/
theorem C96_given (st : St) (i : Nat) {a : Addr} (hp : (st.callers i).phase = .connecting) (ha : (st.callers i).address = some a)
    (hm : (st.callers i).auto = some true) (hfree : ∀ s ∈ st.socks, s.addr ≠ a) :
    ∃ st', run st [.next i, .next i, .next i] = some st' ∧ (st'.callers i).phase = .up a ∧ ServedBy st' i a := by
  have hl : listens st.socks a = false := by
    cases h : listens st.socks a with
    | false => rfl
    | true =>
      obtain ⟨s, hs, h1, _⟩ := (listens_iff st a).1 h
      exact absurd h1 (hfree s hs)
  have hb : canBind st.socks a true = true := by
    simp only [canBind, List.all_eq_true, Bool.or_eq_true, bne_iff_ne]
    exact fun s hs => .inl (hfree s hs)
  have ht : (st.callers i).target = a := by simp [Caller.target, ha]
  have hms : (st.callers i).mayStart = true := by simp [Caller.mayStart, hm]
  have e1 : step st (.next i) = some (st.to i (.binding a)) := by simp [step, next, hp, ht, hl, hms, ha]
  have e2 : step (st.to i (.binding a)) (.next i) =
      some ({ (st.to i (.binding a)) with socks := ⟨a, true, false, some i⟩ :: st.socks }.to i (.bound a)) := by
    simp [step, next, to_self, to_socks, hb]
  have hl2 : listens (⟨a, true, false, some i⟩ :: st.socks) a = false := by
    simpa [listens] using hl
  generalize hst : ({ (st.to i (.binding a)) with socks := ⟨a, true, false, some i⟩ :: st.socks }.to i (.bound a) : St) = st2 at e2
  have hp2 : (st2.callers i).phase = .bound a := by rw [← hst, to_self]
  have hs2 : st2.socks = ⟨a, true, false, some i⟩ :: st.socks := by rw [← hst]; rfl
  have e3 : step st2 (.next i) = some ({ st2 with socks := st2.socks.map fun (s : Sock) => if s.owner = some i ∧ s.addr = a then { s with listening := true } else s }.to i (.up a)) := by
    simp only [step, next, hp2, hs2, hl2, Bool.false_eq_true, if_false]
  refine ⟨_, by simp only [run, e1, e2, e3]; rfl, ?_, ⟨a, true, true, some i⟩, ?_, rfl, rfl, rfl⟩
  · rw [to_self]
  · rw [to_socks, hs2]; simp

/-- C96: a caller without address never gets stuck. -/
theorem C96_never_stuck_partial {st : St} (h : Reachable st) {i : Nat} (ha : (st.callers i).address = none) : (st.callers i).phase ≠ .failed := by
  obtain ⟨st0, as, h0, h1⟩ := h
  have key : ∀ (as : List Act) (s0 s : St), Inv s0 → Inv2 s0 → run s0 as = some s → Inv2 s := by
    intro as
    induction as with
    | nil => intro s0 s _ h hr; cases hr; exact h
    | cons a as ih =>
      intro s0 s g1 g2 hr
      simp only [run] at hr
      split at hr
      · rename_i s1 e; exact ih s1 s (step_inv g1 e) (step_inv2 g1 g2 e) hr
      · cases hr
  exact (key as st0 st (initial_inv h0) ⟨by simp [h0.1], by simp [h0.1], by simp [h0.2]⟩ h1).fine i ha

theorem ends_scanning : ∀ (n : Nat) (st : St) (i p : Nat), 65536 - p ≤ n → (st.callers i).phase = .scanning p →
    ∃ as st', (∀ a ∈ as, a = .next i) ∧ run st as = some st' ∧ ((∃ a, (st'.callers i).phase = .bound a) ∨ (st'.callers i).phase = .noSocket) := by
  intro n
  induction n with
  | zero =>
    intro st i p h1 hp
    refine ⟨[.next i], st.to i .noSocket, by simp, ?_, .inr (by rw [to_self])⟩
    have : 65535 < p := by omega
    simp only [run, step, next, hp, if_pos this]
  | succ n ih =>
    intro st i p h1 hp
    by_cases h2 : 65535 < p
    · exact ⟨[.next i], st.to i .noSocket, by simp, by simp only [run, step, next, hp, if_pos h2], .inr (by rw [to_self])⟩
    · have goOn : step st (.next i) = some (st.to i (.scanning (p + 1))) → ∃ as st', (∀ a ∈ as, a = .next i) ∧ run st as = some st' ∧
          ((∃ a, (st'.callers i).phase = .bound a) ∨ (st'.callers i).phase = .noSocket) := by
        intro e
        obtain ⟨as, st', g1, g2, g3⟩ := ih (st.to i (.scanning (p + 1))) i (p + 1) (by omega) (by rw [to_self])
        refine ⟨.next i :: as, st', ?_, by simp only [run, e, g2], g3⟩
        intro a ha
        rcases List.mem_cons.1 ha with rfl | ha
        · rfl
        · exact g1 a ha
      by_cases h3 : p = defaultAddr.2
      · exact goOn (by simp only [step, next, hp, if_neg h2, if_pos h3])
      · by_cases h4 : canBind st.socks (defaultAddr.1, p) false = true
        · exact ⟨[.next i], _, by simp, (by simp only [run, step, next, hp, if_neg h2, if_neg h3, if_pos h4]; rfl), .inl ⟨_, by rw [to_self]⟩⟩
        · exact goOn (by simp only [step, next, hp, if_neg h2, if_neg h3, if_neg h4])

/-- C96: `ensure` ends after finitely many steps of its own, unless its server fails to listen. -/
theorem C96_ends (st : St) (i : Nat) : ∃ as st', (∀ a ∈ as, a = .next i) ∧ run st as = some st' ∧
    (Phase.ended (st'.callers i).phase = true ∨ (st'.callers i).phase = .failed) := by
  have fromBound : ∀ (st : St) a, (st.callers i).phase = .bound a → ∃ st', step st (.next i) = some st' ∧
      (Phase.ended (st'.callers i).phase = true ∨ (st'.callers i).phase = .failed) := by
    intro st a hp
    by_cases hl : listens st.socks a = true
    · exact ⟨_, (by simp only [step, next, hp, if_pos hl]; rfl), .inr (by rw [to_self])⟩
    · exact ⟨_, (by simp only [step, next, hp, if_neg hl]; rfl), .inl (by rw [to_self]; rfl)⟩
  have app : ∀ (as bs : List Act) (s1 s2 s3 : St), run s1 as = some s2 → run s2 bs = some s3 → run s1 (as ++ bs) = some s3 := by
    intro as
    induction as with
    | nil => intro bs s1 s2 s3 h1 h2; cases h1; exact h2
    | cons a as ih =>
      intro bs s1 s2 s3 h1 h2
      simp only [run, List.cons_append] at h1 ⊢
      split at h1
      · rename_i s e; exact ih bs s s2 s3 h1 h2
      · cases h1
  have fromBinding : ∀ (st : St) a, (st.callers i).phase = .binding a → ∃ as st', (∀ a ∈ as, a = .next i) ∧ run st as = some st' ∧
      (Phase.ended (st'.callers i).phase = true ∨ (st'.callers i).phase = .failed) := by
    intro st a hp
    by_cases hc : canBind st.socks a true = true
    · have e1 : step st (.next i) = some ({ st with socks := ⟨a, true, false, some i⟩ :: st.socks }.to i (.bound a)) := by
        simp only [step, next, hp, if_pos hc]
      obtain ⟨st', e2, h⟩ := fromBound ({ st with socks := ⟨a, true, false, some i⟩ :: st.socks }.to i (.bound a)) a (by rw [to_self])
      exact ⟨[.next i, .next i], st', by simp, by simp only [run, e1, e2], h⟩
    · exact ⟨[.next i], _, by simp, (by simp only [run, step, next, hp, if_neg hc]; rfl), .inl (by rw [to_self]; rfl)⟩
  have fromScanning : ∀ (st : St) p, (st.callers i).phase = .scanning p → ∃ as st', (∀ a ∈ as, a = .next i) ∧ run st as = some st' ∧
      (Phase.ended (st'.callers i).phase = true ∨ (st'.callers i).phase = .failed) := by
    intro st p hp
    obtain ⟨as, st1, g1, g2, g3⟩ := ends_scanning _ st i p (Nat.le_refl _) hp
    rcases g3 with ⟨a, g3⟩ | g3
    · obtain ⟨st', e2, h⟩ := fromBound st1 a g3
      refine ⟨as ++ [.next i], st', ?_, app _ _ _ _ _ g2 (by simp only [run, e2]), h⟩
      intro b hb
      rcases List.mem_append.1 hb with hb | hb
      · exact g1 b hb
      · simpa using hb
    · exact ⟨as, st1, g1, g2, .inl (by rw [g3]; rfl)⟩
  cases hp : (st.callers i).phase with
  | connecting =>
    by_cases hl : listens st.socks (st.callers i).target = true
    · exact ⟨[.next i], _, by simp, (by simp only [run, step, next, hp, if_pos hl]; rfl), .inl (by rw [to_self]; rfl)⟩
    · by_cases hm : (st.callers i).mayStart = true
      · cases ha : (st.callers i).address with
        | some a =>
          obtain ⟨as, st', g1, g2, g3⟩ := fromBinding (st.to i (.binding a)) a (by rw [to_self])
          refine ⟨.next i :: as, st', ?_, ?_, g3⟩
          · intro b hb
            rcases List.mem_cons.1 hb with rfl | hb
            · rfl
            · exact g1 b hb
          · simp only [run, step, next, hp, if_neg hl, if_pos hm, ha, g2]
        | none =>
          obtain ⟨as, st', g1, g2, g3⟩ := fromScanning (st.to i (.scanning (st.callers i).env.start)) _ (by rw [to_self])
          refine ⟨.next i :: as, st', ?_, ?_, g3⟩
          · intro b hb
            rcases List.mem_cons.1 hb with rfl | hb
            · rfl
            · exact g1 b hb
          · simp only [run, step, next, hp, if_neg hl, if_pos hm, ha, g2]
      · exact ⟨[.next i], _, by simp, (by simp only [run, step, next, hp, if_neg hl, if_neg hm]; rfl), .inl (by rw [to_self]; rfl)⟩
  | binding a => exact fromBinding st a hp
  | scanning p => exact fromScanning st p hp
  | bound a =>
    obtain ⟨st', e2, h⟩ := fromBound st a hp
    exact ⟨[.next i], st', by simp, by simp only [run, e2], h⟩
  | failed => exact ⟨[], st, by simp, rfl, .inr hp⟩
  | _ => exact ⟨[], st, by simp, rfl, .inl (by rw [hp]; rfl)⟩

/-- C96 is violated: a server that is started without address is never at the default address, contrary to the documentation of `run` (backend.py:946-947). -/
theorem C96_not_default {st : St} (h : Reachable st) {i : Nat} {a : Addr} (hu : (st.callers i).phase = .up a) (hn : (st.callers i).address = none) :
    a ≠ ("127.0.0.1", 25978) := by
  have hr := (reachable_inv h).right i
  simp only [Caller.Right, hu] at hr
  rcases hr with hr | ⟨_, _, h3, _⟩
  · rw [hn] at hr; cases hr
  · rintro rfl; exact h3 rfl

/-- C96 is violated: so the next caller without address does not find it, and starts another server. -/
theorem C96_not_shared : ∃ st : St, Reachable st ∧ (st.callers 0).address = none ∧ (st.callers 1).address = none ∧
    (st.callers 0).phase = .up ("127.0.0.1", 10000) ∧ (st.callers 1).phase = .up ("127.0.0.1", 10001) := by
  let st0 : St := ⟨[], fun _ => ⟨⟨none, 10000⟩, none, none, .connecting⟩⟩
  refine ⟨_, ⟨st0, [.next 0, .next 0, .next 0, .next 1, .next 1, .next 1, .next 1], ⟨rfl, fun _ => rfl⟩, rfl⟩, rfl, rfl, rfl, rfl⟩

/-- C96 is violated: two callers with one address can both bind it before one of them listens. Then the other one's server fails, and `ensure` never returns. -/
theorem C96_hangs : ∃ st : St, Reachable st ∧ (st.callers 0).phase = .up ("10.0.0.1", 5000) ∧ (st.callers 1).phase = .failed := by
  let st0 : St := ⟨[], fun _ => ⟨⟨none, 10000⟩, some ("10.0.0.1", 5000), some true, .connecting⟩⟩
  refine ⟨_, ⟨st0, [.next 0, .next 1, .next 0, .next 1, .next 0, .next 1], ⟨rfl, fun _ => rfl⟩, rfl⟩, rfl, rfl⟩

/-- C96 is violated: it never returns. -/
theorem C96_hangs_forever {st st' : St} {as : List Act} {i : Nat} (hp : (st.callers i).phase = .failed) (hs : run st as = some st') :
    (st'.callers i).phase = .failed ∧ Phase.ended (st'.callers i).phase = false := by
  have : (st'.callers i).phase = .failed := by
    induction as generalizing st with
    | nil => cases hs; exact hp
    | cons a as ih =>
      simp only [run] at hs
      split at hs
      · rename_i s1 e
        refine ih ?_ hs
        rw [C96_own_steps e i ?_ ?_]
        · exact hp
        · rintro rfl; simp only [step, next, hp] at e; cases e
        · rintro rfl; simp only [step, hp] at e; cases e
      · cases hs
  exact ⟨this, by rw [this]; rfl⟩

/-- C96, partial: the processes of a run are given the address of its context. If it has started a server, or was given an address, each of them uses the server at that address or none: it never starts one. Missing: a context that has
found a server at the default address gives them no address (`C96_split`). -/
theorem C96_same_partial {st : St} (h : Reachable st) {parent child : Nat} {a : Addr}
    (hp : (st.callers parent).phase = .up a ∨ (st.callers parent).address = some a) (hc : (st.callers child).address = (st.callers parent).contextAddress) (ha : (st.callers child).auto = none) :
    (st.callers child).target = a ∧
      ((st.callers child).phase = .connecting ∨ (st.callers child).phase = .found ∨ (st.callers child).phase = .refused) := by
  have hp : (st.callers parent).contextAddress = some a := by
    rcases hp with hp | hp
    · simp only [Caller.contextAddress, hp]
    · simp only [Caller.contextAddress]
      split
      · rename_i b hb; rw [(C96_listens h hb).2.1 a hp]
      · exact hp
  rw [hp] at hc
  refine ⟨by simp [Caller.target, hc], ?_⟩
  obtain ⟨st0, as, h0, hr⟩ := h
  have key : ∀ (as : List Act) (s0 s : St), run s0 as = some s → (s.callers child).address = some a → (s.callers child).auto = none →
      ((s0.callers child).phase = .connecting ∨ (s0.callers child).phase = .found ∨ (s0.callers child).phase = .refused) →
      ((s.callers child).phase = .connecting ∨ (s.callers child).phase = .found ∨ (s.callers child).phase = .refused) := by
    intro as
    induction as with
    | nil => intro s0 s hr _ _ h; cases hr; exact h
    | cons b as ih =>
      intro s0 s hr h1 h2 h3
      have hr0 := hr
      simp only [run] at hr
      split at hr
      · rename_i s1 e
        refine ih s1 s hr h1 h2 ?_
        by_cases hb : b = .next child
        · subst hb
          have hsame : ∀ (as : List Act) (s0 s : St), run s0 as = some s →
              (s.callers child).address = (s0.callers child).address ∧ (s.callers child).auto = (s0.callers child).auto := by
            intro as
            induction as with
            | nil => intro s0 s h; cases h; exact ⟨rfl, rfl⟩
            | cons c as ih2 =>
              intro s0 s h
              simp only [run] at h
              split at h
              · rename_i s2 e2
                obtain ⟨g1, g2⟩ := ih2 s2 s h
                have : (s2.callers child).address = (s0.callers child).address ∧ (s2.callers child).auto = (s0.callers child).auto := by
                  cases c with
                  | next j =>
                    simp only [step, next] at e2
                    split at e2 <;> (try split at e2) <;> (try split at e2) <;> (try split at e2) <;> cases e2 <;>
                      (simp only [St.to]; split <;> exact ⟨rfl, rfl⟩)
                  | stop j =>
                    simp only [step] at e2
                    split at e2 <;> cases e2
                    simp only [St.to]; split <;> exact ⟨rfl, rfl⟩
                  | opened s => simp only [step] at e2; split at e2 <;> cases e2; exact ⟨rfl, rfl⟩
                  | closed s => simp only [step] at e2; split at e2 <;> cases e2; exact ⟨rfl, rfl⟩
                exact ⟨g1.trans this.1, g2.trans this.2⟩
              · cases h
          obtain ⟨g1, g2⟩ := hsame _ _ _ hr0
          rw [h1] at g1
          rw [h2] at g2
          rcases h3 with h3 | h3 | h3
          · have hm : (s0.callers child).mayStart = false := by simp [Caller.mayStart, ← g1, ← g2]
            simp only [step, next, h3, hm, Bool.false_eq_true, if_false] at e
            split at e <;> cases e <;> simp [to_self]
          · simp only [step, next, h3] at e; cases e
          · simp only [step, next, h3] at e; cases e
        · by_cases hb2 : b = .stop child
          · subst hb2
            rcases h3 with h3 | h3 | h3 <;> (simp only [step, h3] at e; cases e)
          · rw [C96_own_steps e child hb hb2]; exact h3
      · cases hr
  exact key as st0 st hr hc ha (.inl (h0.2 child))

/-- C96 is violated: if the server at the default address goes away after the context of a run has found it, a process of the run starts a server of its own. -/
theorem C96_split : ∃ st : St, Reachable st ∧ (st.callers 0).phase = .found ∧ (st.callers 1).address = (st.callers 0).contextAddress ∧
    (st.callers 1).auto = none ∧ (st.callers 1).phase = .up ("127.0.0.1", 10000) := by
  let st0 : St := ⟨[], fun _ => ⟨⟨none, 10000⟩, none, none, .connecting⟩⟩
  refine ⟨_, ⟨st0, [.opened ⟨("127.0.0.1", 25978), true, true, none⟩, .next 0, .closed ⟨("127.0.0.1", 25978), true, true, none⟩, .next 1, .next 1, .next 1],
    ⟨rfl, fun _ => rfl⟩, rfl⟩, rfl, rfl, rfl, rfl⟩

/-! ## Examples -/

/-- Non-vacuity: a caller starts a server at its address, another one finds it, a third without `auto_start` is refused at another address. -/
example : ∃ st : St, Reachable st ∧ (st.callers 0).phase = .up ("h", 7) ∧ (st.callers 1).phase = .found ∧ (st.callers 2).phase = .refused := by
  let st0 : St := ⟨[], fun i => if i = 0 then ⟨⟨none, 10000⟩, some ("h", 7), some true, .connecting⟩ else if i = 1 then ⟨⟨none, 10000⟩, some ("h", 7), none, .connecting⟩
    else ⟨⟨some ("k", 8), 10000⟩, none, none, .connecting⟩⟩
  refine ⟨_, ⟨st0, [.next 0, .next 0, .next 0, .next 1, .next 2], ⟨rfl, fun i => ?_⟩, rfl⟩, rfl, rfl, rfl⟩
  simp only [st0]
  repeat (first | split | rfl)

/-- Non-vacuity of `C96_given` and `C96_gone`: a caller with an address and `auto_start` before its first step; its server is stopped after three steps. -/
example : ∃ st0 st : St, (st0.callers 0).phase = .connecting ∧ (st0.callers 0).address = some ("h", 7) ∧ (st0.callers 0).auto = some true ∧
    (∀ s ∈ st0.socks, s.addr ≠ ("h", 7)) ∧ Reachable st ∧ (st.callers 0).phase = .stopped := by
  let st0 : St := ⟨[], fun _ => ⟨⟨none, 10000⟩, some ("h", 7), some true, .connecting⟩⟩
  exact ⟨st0, _, rfl, rfl, rfl, by simp [st0], ⟨st0, [.next 0, .next 0, .next 0, .stop 0], ⟨rfl, fun _ => rfl⟩, rfl⟩, rfl⟩

/-- Non-vacuity: a caller without address takes the first port that is not in use. -/
example : ∃ st : St, Reachable st ∧ (st.callers 0).phase = .up ("127.0.0.1", 10001) := by
  let st0 : St := ⟨[], fun _ => ⟨⟨none, 10000⟩, none, none, .connecting⟩⟩
  exact ⟨_, ⟨st0, [.opened ⟨("127.0.0.1", 10000), false, false, none⟩, .next 0, .next 0, .next 0, .next 0], ⟨rfl, fun _ => rfl⟩, rfl⟩, rfl⟩

end Start
end Ez
