import Verif.Lemmas.SystemRun

/-! # The subscribers' steps, and all steps together -/

set_option linter.unusedSectionVars false
set_option linter.unusedSimpArgs false

namespace Ez.Sys
variable {P K S V : Type} [DecidableEq P] [DecidableEq K] [DecidableEq S]
variable {cfg : Cfg P K S} {strict : K → Prop} {cur : Cur K S} {st st' : St P K S V}

/-- Looking up a message that is still due gives its content. -/
theorem lookup_ok (h : Inv cfg strict none st) {k : K} {c : S} {m : Nat} (hp : Unfinished cfg st k c m) :
    ∃ v, lookup cfg st k m = .ok v ∧ (bcasts (cfg.pubOf k) st.log)[m]? = some v := by
  have hc := h.chan k
  obtain ⟨e, e1, e2, e3⟩ := hc.cacheOk c m hp (by simp [exOf])
  have hg : (st.chan k).cache.get m = .ok e.object :=
    (MessageCache.get_spec (by rw [hc.cacheLen]; exact hc.pos) _).2 ⟨e, by rw [hc.cacheLen]; exact e1, e2, rfl⟩
  unfold lookup
  rw [hg]
  rcases e3 with ⟨h1, h2⟩ | ⟨v, h1, h2⟩
  · obtain ⟨v, h3, h4⟩ := hc.shmOk h1 m (Or.inr (Or.inl ⟨c, hp⟩))
    refine ⟨v, ?_, h4⟩
    simp only [h2, deref, h3]
  · refine ⟨v, ?_, h2⟩
    simp only [h1, deref]

theorem mem_eraseIdx_nodup {α : Type} {l : List α} (hn : l.Nodup) {j : Nat} {a : α}
    (hj : l[j]? = some a) (x : α) : x ∈ l.eraseIdx j ↔ x ∈ l ∧ x ≠ a := by
  induction l generalizing j with
  | nil => simp at hj
  | cons y l ih =>
    obtain ⟨hy, hn⟩ := List.nodup_cons.1 hn
    cases j with
    | zero =>
      simp only [List.getElem?_cons_zero, Option.some.injEq] at hj
      subst hj
      simp only [List.eraseIdx_cons_zero, List.mem_cons]
      constructor
      · intro hx; exact ⟨Or.inr hx, fun e => hy (e ▸ hx)⟩
      · rintro ⟨rfl | hx, hne⟩
        · exact absurd rfl hne
        · exact hx
    | succ j =>
      simp only [List.getElem?_cons_succ] at hj
      simp only [List.eraseIdx_cons_succ, List.mem_cons, ih hn hj]
      have ha : a ∈ l := List.mem_of_getElem? hj
      constructor
      · rintro (rfl | hx)
        · exact ⟨Or.inl rfl, fun e => hy (e ▸ ha)⟩
        · exact ⟨Or.inr hx.1, hx.2⟩
      · rintro ⟨rfl | hx, hne⟩
        · exact Or.inl rfl
        · exact Or.inr ⟨hx, hne⟩

/-- A step that changes one subscriber and the log, without changing what is due. -/
theorem Inv.subLog (h : Inv cfg strict none st) (s : S) (sb : SubSt P K) (log' : List (Ev P K S V))
    (hst : st' = { st with sub := upd st.sub s sb, log := log' })
    (hb : ∀ p, bcasts p log' = bcasts p st.log) (hn : ∀ k, nextId cfg k log' = nextId cfg k st.log)
    (hch : sb.chans = (st.sub s).chans)
    (hpend : ∀ k c m, Unfinished cfg st' k c m ↔ Unfinished cfg st k c m)
    (hs : SubOk cfg sb log' (uptoOf cfg none log' s) s)
    (ho : ∀ c, c ≠ s → ∀ k, recvd c k log' = recvd c k st.log ∧
      startId cfg c k log' = startId cfg c k st.log) :
    Inv cfg strict none st' := by
  subst hst
  refine ⟨?_, ?_, ?_, ?_, h.shut⟩
  · intro k
    exact CI.transfer (h.chan k) (fun _ => Iff.rfl) Iff.rfl (sentOf_congr (fun _ _ => Iff.rfl) (hb _))
      (hb _) rfl rfl (hpend k) (hn k)
  · intro p
    simp only [hb]
    exact h.pub p
  · intro c
    by_cases hc : c = s
    · subst hc; simp only [upd_same]; exact hs
    · simp only [upd_ne _ _ hc]
      refine (h.sub c).congrLog (fun k => (ho c hc k).1) (fun k => (ho c hc k).2) ?_ ?_
      · intro k _; simp only [uptoOf]; exact hn k
      · intro p m v hv; rw [hb]; exact hv
  · intro c k
    rw [h.cl c k]
    by_cases hc : c = s
    · subst hc; simp only [upd_same, hch]
    · simp only [upd_ne _ _ hc]

theorem recv_ok (h : Inv cfg strict none st) {s : S} {p : P} {m : Nat} {q : List (P × Nat)}
    (hq : (st.sub s).queue = (p, m) :: q) {k : K} (hk : (st.sub s).chans p = some k) :
    ∃ v, lookup cfg st k m = .ok v ∧ (bcasts (cfg.pubOf k) st.log)[m]? = some v ∧
      Inv cfg strict none (addLog (setSub st s { st.sub s with
            queue := q, held := (st.sub s).held ++ [(p, m)] }) (.recv s k m v)) := by
  have hs := h.sub s
  have hkp := hs.chanPub p k hk
  subst hkp
  have hpend : Unfinished cfg st k s m := ⟨hk, Or.inl (by rw [hq]; exact List.mem_cons_self ..)⟩
  obtain ⟨v, h1, h2⟩ := lookup_ok h hpend
  have hseq := hs.seq k hk
  rw [hq, qids_cons, if_pos rfl] at hseq
  refine ⟨v, h1, h2, h.subLog s { st.sub s with queue := q, held := (st.sub s).held ++ [(cfg.pubOf k, m)] }
    (.recv s k m v :: st.log) rfl (fun _ => rfl) (fun _ => rfl) rfl ?_ ?_ ?_⟩
  · intro k' c m'
    unfold Unfinished
    simp only [addLog, setSub]
    by_cases hc : c = s
    · subst hc
      simp only [upd_same, hq, List.mem_cons, List.mem_append, List.mem_singleton, List.not_mem_nil, or_false]
      constructor
      · rintro ⟨a, b | b | b⟩
        · exact ⟨a, Or.inl (Or.inr b)⟩
        · exact ⟨a, Or.inr b⟩
        · exact ⟨a, Or.inl (Or.inl b)⟩
      · rintro ⟨a, (b | b) | b⟩
        · exact ⟨a, Or.inr (Or.inr b)⟩
        · exact ⟨a, Or.inl b⟩
        · exact ⟨a, Or.inr (Or.inl b)⟩
    · simp only [upd_ne _ _ hc]
  · refine ⟨?_, hs.chanPub, ?_, ?_, ?_, ?_⟩
    · intro p' m' hm
      refine hs.linked p' m' ?_
      rw [hq]
      simp only [List.mem_append, List.mem_singleton] at hm
      simp only [List.mem_cons]
      rcases hm with hm | hm | hm
      · exact Or.inl (Or.inr hm)
      · exact Or.inr hm
      · exact Or.inl (Or.inl hm)
    · intro k' hk'
      have hk'' : (st.sub s).chans (cfg.pubOf k') = some k' := hk'
      by_cases he : k' = k
      · subst he
        simp only [recvd, startId, uptoOf, nextId, and_self, if_true, List.map_append, List.map_cons, List.map_nil]
        exact hseq.recv
      · have hp' : ¬ cfg.pubOf k = cfg.pubOf k' := by
          intro e
          rw [← e, hk] at hk''
          cases hk''
          exact he rfl
        have hs' := hs.seq k' hk''
        rw [hq, qids_cons, if_neg hp'] at hs'
        have he' : ¬ k = k' := fun e => he e.symm
        simp only [recvd, startId, uptoOf, nextId, he', and_false, if_false]
        exact hs'
    · intro k' m' hk' hm
      have hk'' : (st.sub s).chans (cfg.pubOf k') = some k' := hk'
      simp only [List.mem_append, List.mem_singleton, Prod.mk.injEq] at hm
      by_cases he : k' = k
      · subst he
        simp only [recvd, and_self, if_true, List.map_append, List.map_cons, List.map_nil, List.mem_append,
          List.mem_singleton]
        rcases hm with hm | hm
        · exact Or.inl (hs.heldRec k' m' hk'' hm)
        · exact Or.inr hm.2
      · have he' : ¬ k = k' := fun e => he e.symm
        simp only [recvd, he', and_false, if_false]
        rcases hm with hm | hm
        · exact hs.heldRec k' m' hk'' hm
        · exfalso
          rw [hm.1, hk] at hk''
          cases hk''
          exact he rfl
    · show ((st.sub s).held ++ [(cfg.pubOf k, m)]).Nodup
      rw [List.nodup_append]
      refine ⟨hs.heldNodup, by simp, ?_⟩
      intro a ha b hb
      simp only [List.mem_singleton] at hb
      subst hb
      intro e; subst e
      exact hseq.head_fresh.2 (hs.heldRec k m hk ha)
    · intro k' m' v' hm
      by_cases he : k = k'
      · subst he
        simp only [recvd, and_self, if_true, List.mem_append, List.mem_singleton, Prod.mk.injEq] at hm
        rcases hm with hm | hm
        · exact hs.vals k m' v' hm
        · rw [hm.1, hm.2]; exact h2
      · simp only [recvd, he, and_false, if_false] at hm
        exact hs.vals k' m' v' hm
  · intro c hc k'
    have : ¬ s = c := fun e => hc e.symm
    simp [recvd, startId, this]

theorem release_ok (h : Inv cfg strict none st) {s : S} {j : Nat} {p : P} {m : Nat}
    (hj : (st.sub s).held[j]? = some (p, m)) {k : K} (hk : (st.sub s).chans p = some k) :
    ∃ st', releaseBp cfg
          (setSub st s { st.sub s with held := (st.sub s).held.eraseIdx j }) k m s = .ok st' ∧
      Inv cfg strict none (addLog st' (.done s k m)) ∧ Frame cfg none st st' ∧ st'.log = st.log ∧
      st'.sub = upd st.sub s { st.sub s with held := (st.sub s).held.eraseIdx j } := by
  have hs := h.sub s
  have hkp := hs.chanPub p k hk
  subst hkp
  have hmem : (cfg.pubOf k, m) ∈ (st.sub s).held := List.mem_of_getElem? hj
  have hpend : Unfinished cfg st k s m := ⟨hk, Or.inr hmem⟩
  have hrec := hs.heldRec k m hk hmem
  have hnq : (cfg.pubOf k, m) ∉ (st.sub s).queue := by
    intro hq
    obtain ⟨a, h1, h2, h3, h4, h5, h6⟩ := hs.seq k hk
    have h7 := mem_qids.2 hq
    rw [h3, List.mem_range'_1] at h7
    have := h5 m hrec
    omega
  obtain ⟨st', r1, r2, r3, r4, r5⟩ := releaseBp_ok h hpend (by simp [exOf])
    { st.sub s with held := (st.sub s).held.eraseIdx j } rfl (by
      intro p' m'
      simp only [mem_eraseIdx_nodup hs.heldNodup hj, ne_eq, Prod.mk.injEq]
      constructor
      · rintro (hq | hh)
        · exact ⟨Or.inl hq, by rintro ⟨rfl, rfl⟩; exact hnq hq⟩
        · exact ⟨Or.inr hh.1, hh.2⟩
      · rintro ⟨hq | hh, hne⟩
        · exact Or.inl hq
        · exact Or.inr ⟨hh, hne⟩) (by
      refine ⟨?_, hs.chanPub, hs.seq, ?_, ?_, hs.vals⟩
      · intro p' m' hm
        refine hs.linked p' m' ?_
        rcases hm with hm | hm
        · exact Or.inl hm
        · exact Or.inr (List.mem_of_mem_eraseIdx hm)
      · intro k' m' hk' hm
        exact hs.heldRec k' m' hk' (List.mem_of_mem_eraseIdx hm)
      · exact hs.heldNodup.sublist (List.eraseIdx_sublist ..))
  exact ⟨st', r1, r2.addNeutral trivial, r3, r4, r5⟩

theorem link_ok (h : Inv cfg strict none st) {s : S} {k : K}
    (hn : (st.sub s).chans (cfg.pubOf k) = none) (hc : (st.chan k).closed = false)
    (ho : (st.chan k).opened = true) :
    Inv cfg strict none (addLog (setSub
      (setChan st k { st.chan k with clients := (st.chan k).clients ++ [s] }) s
      { st.sub s with chans := upd (st.sub s).chans (cfg.pubOf k) (some k) }) (.linked s k)) := by
  have hs := h.sub s
  have hnc : s ∉ (st.chan k).clients := by
    intro hm
    rw [h.cl, hn] at hm
    cases hm
  have hnone : ∀ m, ¬ ((cfg.pubOf k, m) ∈ (st.sub s).queue ∨ (cfg.pubOf k, m) ∈ (st.sub s).held) := by
    intro m hm
    obtain ⟨k', hk'⟩ := hs.linked _ _ hm
    rw [hn] at hk'; cases hk'
  have hpend : ∀ k' c m, Unfinished cfg (addLog (setSub
      (setChan st k { st.chan k with clients := (st.chan k).clients ++ [s] }) s
      { st.sub s with chans := upd (st.sub s).chans (cfg.pubOf k) (some k) }) (.linked s k)) k' c m ↔
      Unfinished cfg st k' c m := by
    intro k' c m
    unfold Unfinished
    simp only [addLog, setSub, setChan]
    by_cases hcs : c = s
    · subst hcs
      simp only [upd_same]
      by_cases hp : cfg.pubOf k' = cfg.pubOf k
      · simp only [hp]
        constructor
        · intro hh; exact absurd hh.2 (hnone m)
        · intro hh; exact absurd hh.2 (hnone m)
      · simp only [upd_ne _ _ hp]
    · simp only [upd_ne _ _ hcs]
  refine ⟨?_, ?_, ?_, ?_, ?_⟩
  · intro k'
    by_cases hk : k' = k
    · subst hk
      refine CI.of ((h.chan k').link hnc hc) (fun _ => Iff.rfl) Iff.rfl
        (sentOf_congr (fun _ _ => Iff.rfl) rfl) rfl rfl ?_ (hpend k') rfl
      simp only [addLog, setSub, setChan, upd_same]
    · refine CI.transfer (h.chan k') (fun _ => Iff.rfl) Iff.rfl
        (sentOf_congr (fun _ _ => Iff.rfl) rfl) rfl rfl ?_ (hpend k') rfl
      simp only [addLog, setSub, setChan, upd_ne _ _ hk]
  · intro q
    have := h.pub q
    refine { this with chansPub := ?_ }
    intro k' hk'
    obtain ⟨a, b⟩ := this.chansPub k' hk'
    refine ⟨a, ?_⟩
    simp only [addLog, setSub, setChan]
    by_cases hk : k' = k
    · subst hk; rw [upd_same]; exact b
    · rw [upd_ne _ _ hk]; exact b
  · intro c
    by_cases hcs : c = s
    · subst hcs
      simp only [addLog, setSub, setChan, upd_same]
      refine ⟨?_, ?_, ?_, ?_, hs.heldNodup, ?_⟩
      · intro p m hm
        by_cases hp : p = cfg.pubOf k
        · subst hp; exact absurd hm (hnone m)
        · simp only [upd_ne _ _ hp]; exact hs.linked p m hm
      · intro p k' hk'
        by_cases hp : p = cfg.pubOf k
        · subst hp; simp only [upd_same] at hk'; cases hk'; rfl
        · simp only [upd_ne _ _ hp] at hk'; exact hs.chanPub p k' hk'
      · intro k' hk'
        by_cases hp : cfg.pubOf k' = cfg.pubOf k
        · simp only [hp, upd_same] at hk'
          cases hk'
          simp only [recvd, startId, uptoOf, nextId, and_self, if_true, List.map_nil]
          have hq : qids (cfg.pubOf k) (st.sub c).queue = [] := by
            rw [List.eq_nil_iff_forall_not_mem]
            intro m hm
            exact hnone m (Or.inl (mem_qids.1 hm))
          rw [hq]
          exact ⟨nextId cfg k st.log, by simp, by simp, by simp, by simp, by simp, by simp⟩
        · have he : ¬ k = k' := fun e => hp (by rw [e])
          simp only [upd_ne _ _ hp] at hk'
          simp only [recvd, startId, uptoOf, nextId, he, and_false, if_false]
          exact hs.seq k' hk'
      · intro k' m hk' hm
        by_cases hp : cfg.pubOf k' = cfg.pubOf k
        · rw [hp] at hm; exact absurd (Or.inr hm) (hnone m)
        · have he : ¬ k = k' := fun e => hp (by rw [e])
          simp only [upd_ne _ _ hp] at hk'
          simp only [recvd, he, and_false, if_false]
          exact hs.heldRec k' m hk' hm
      · intro k' m v hm
        by_cases he : k = k'
        · subst he; simp [recvd] at hm
        · simp only [recvd, he, and_false, if_false] at hm
          exact hs.vals k' m v hm
    · have hcs' : ¬ s = c := fun e => hcs e.symm
      simp only [addLog, setSub, setChan, upd_ne _ _ hcs]
      refine (h.sub c).congrLog ?_ ?_ (fun _ _ => rfl) (fun _ _ _ hm => hm)
      · intro k'; simp [recvd, hcs']
      · intro k'; simp [startId, hcs']
  · intro c k'
    have hcl := h.cl c k'
    simp only [addLog, setSub, setChan]
    by_cases hk : k' = k
    · subst hk
      simp only [upd_same, List.mem_append, List.mem_singleton]
      by_cases hcs : c = s
      · subst hcs; simp only [upd_same]; simp
      · simp only [upd_ne _ _ hcs, hcs, or_false]; exact hcl
    · simp only [upd_ne _ _ hk]
      by_cases hcs : c = s
      · subst hcs
        simp only [upd_same]
        by_cases hp : cfg.pubOf k' = cfg.pubOf k
        · simp only [hp, upd_same, Option.some.injEq]
          rw [hcl, hp, hn]
          constructor
          · intro e; cases e
          · intro e; exact absurd e.symm hk
        · simp only [upd_ne _ _ hp]; exact hcl
      · simp only [upd_ne _ _ hcs]; exact hcl
  · intro k'
    simp only [addLog, setSub, setChan]
    by_cases hk : k' = k
    · subst hk; simp only [upd_same]; intro e; rw [ho] at e; cases e
    · simp only [upd_ne _ _ hk]; exact h.shut k'

/-- Rotating the whole queue once removes the notifications of `p`. -/
theorem rotateOut_append (p : P) (q r : List (P × Nat)) :
    rotateOut p q.length (q ++ r) = r ++ q.filter (fun x => x.1 != p) := by
  induction q generalizing r with
  | nil => simp [rotateOut]
  | cons x q ih =>
    obtain ⟨p', m⟩ := x
    simp only [List.length_cons, List.cons_append, rotateOut]
    by_cases hp : p' = p
    · subst hp
      simp [ih]
    · simp only [ne_eq, hp, not_false_eq_true, if_true, List.append_assoc]
      rw [ih]
      simp [hp]

theorem rotateOut_eq (p : P) (q : List (P × Nat)) :
    rotateOut p q.length q = q.filter (fun x => x.1 != p) := by
  have := rotateOut_append p q []
  simpa using this

theorem unlink_ok (h : Inv cfg strict none st) {s : S} {k : K}
    (hk : (st.sub s).chans (cfg.pubOf k) = some k)
    (hh : ∀ m, (cfg.pubOf k, m) ∉ (st.sub s).held)
    (hstr : strict k → ∀ m, ¬ Unfinished cfg st k s m) :
    ∃ bp, (st.chan k).bp.free s none = some bp ∧ Inv cfg strict none (addLog (setSub
          (setChan st k { st.chan k with
            bp := bp, clients := (st.chan k).clients.filter (· != s) }) s
          { st.sub s with
            queue := rotateOut (cfg.pubOf k) (st.sub s).queue.length (st.sub s).queue
            chans := upd (st.sub s).chans (cfg.pubOf k) none }) (.unlinked s k)) := by
  have hs := h.sub s
  have hc := h.chan k
  obtain ⟨bp, hf⟩ := Backpressure.free_none_isSome hc.bpInv s
  refine ⟨bp, hf, ?_⟩
  rw [rotateOut_eq]
  have hq : ∀ p m, (p, m) ∈ (st.sub s).queue.filter (fun x => x.1 != cfg.pubOf k) ↔
      (p, m) ∈ (st.sub s).queue ∧ p ≠ cfg.pubOf k := by
    intro p m; rw [List.mem_filter]; simp
  have hqq : ∀ p, p ≠ cfg.pubOf k → qids p ((st.sub s).queue.filter (fun x => x.1 != cfg.pubOf k)) =
      qids p (st.sub s).queue := by
    intro p hp
    unfold qids
    rw [List.filter_filter]
    congr 1
    apply List.filter_congr
    intro x _
    by_cases hx : x.1 = p
    · simp [hx, hp]
    · simp [hx]
  refine ⟨?_, ?_, ?_, ?_, ?_⟩
  · intro k'
    by_cases hkk : k' = k
    · subst hkk
      refine CI.of (hc.unlink hf hstr) (fun _ => Iff.rfl) Iff.rfl
        (sentOf_congr (fun _ _ => Iff.rfl) rfl) rfl rfl ?_ ?_ rfl
      · simp only [addLog, setSub, setChan, upd_same]
      · intro c m
        unfold Unfinished
        simp only [addLog, setSub, setChan]
        by_cases hcs : c = s
        · subst hcs
          simp
        · simp only [upd_ne _ _ hcs]
          simp [hcs]
    · refine CI.transfer (h.chan k') (fun _ => Iff.rfl) Iff.rfl
        (sentOf_congr (fun _ _ => Iff.rfl) rfl) rfl rfl ?_ ?_ rfl
      · simp only [addLog, setSub, setChan, upd_ne _ _ hkk]
      · intro c m
        unfold Unfinished
        simp only [addLog, setSub, setChan]
        by_cases hcs : c = s
        · subst hcs
          simp only [upd_same]
          by_cases hp : cfg.pubOf k' = cfg.pubOf k
          · simp only [hp, upd_same, hk]
            constructor
            · rintro ⟨e, _⟩; cases e
            · rintro ⟨e, _⟩
              simp only [Option.some.injEq] at e
              exact absurd e.symm hkk
          · simp only [upd_ne _ _ hp, hq]
            simp [hp]
        · simp only [upd_ne _ _ hcs]
  · intro q
    have := h.pub q
    refine { this with chansPub := ?_ }
    intro k' hk'
    obtain ⟨a, b⟩ := this.chansPub k' hk'
    refine ⟨a, ?_⟩
    simp only [addLog, setSub, setChan]
    by_cases hkk : k' = k
    · subst hkk; rw [upd_same]; exact b
    · rw [upd_ne _ _ hkk]; exact b
  · intro c
    by_cases hcs : c = s
    · subst hcs
      simp only [addLog, setSub, setChan, upd_same]
      refine SubOk.congrLog (log := st.log) (up := uptoOf cfg none st.log c) ?_ (fun _ => rfl) (fun _ => rfl)
        (fun _ _ => rfl) (fun _ _ _ hm => hm)
      refine ⟨?_, ?_, ?_, ?_, hs.heldNodup, hs.vals⟩
      · intro p m hm
        by_cases hp : p = cfg.pubOf k
        · subst hp
          exfalso
          rcases hm with hm | hm
          · exact ((hq _ _).1 hm).2 rfl
          · exact hh m hm
        · simp only [upd_ne _ _ hp]
          refine hs.linked p m ?_
          rcases hm with hm | hm
          · exact Or.inl ((hq _ _).1 hm).1
          · exact Or.inr hm
      · intro p k' hk'
        by_cases hp : p = cfg.pubOf k
        · subst hp; simp only [upd_same] at hk'; cases hk'
        · simp only [upd_ne _ _ hp] at hk'; exact hs.chanPub p k' hk'
      · intro k' hk'
        by_cases hp : cfg.pubOf k' = cfg.pubOf k
        · simp only [hp, upd_same] at hk'; cases hk'
        · simp only [upd_ne _ _ hp] at hk'
          simp only [hqq _ hp]
          exact hs.seq k' hk'
      · intro k' m hk' hm
        by_cases hp : cfg.pubOf k' = cfg.pubOf k
        · simp only [hp, upd_same] at hk'; cases hk'
        · simp only [upd_ne _ _ hp] at hk'
          exact hs.heldRec k' m hk' hm
    · simp only [addLog, setSub, setChan, upd_ne _ _ hcs]
      exact (h.sub c).congrLog (fun _ => rfl) (fun _ => rfl) (fun _ _ => rfl) (fun _ _ _ hm => hm)
  · intro c k'
    have hcl := h.cl c k'
    simp only [addLog, setSub, setChan]
    by_cases hkk : k' = k
    · subst hkk
      simp only [upd_same, List.mem_filter, bne_iff_ne, ne_eq]
      by_cases hcs : c = s
      · subst hcs; simp
      · simp only [upd_ne _ _ hcs, hcs, not_false_eq_true, and_true]; exact hcl
    · simp only [upd_ne _ _ hkk]
      by_cases hcs : c = s
      · subst hcs
        simp only [upd_same]
        by_cases hp : cfg.pubOf k' = cfg.pubOf k
        · simp only [hp, upd_same]
          rw [hcl, hp, hk]
          simp only [Option.some.injEq]
          constructor
          · intro e; exact absurd e.symm hkk
          · intro e; cases e
        · simp only [upd_ne _ _ hp]; exact hcl
      · simp only [upd_ne _ _ hcs]; exact hcl
  · intro k'
    simp only [addLog, setSub, setChan]
    by_cases hkk : k' = k
    · subst hkk; simp only [upd_same]; intro e; rw [h.shut k' e]; rfl
    · simp only [upd_ne _ _ hkk]; exact h.shut k'

/-! ## All steps -/

theorem ofExcept_ok {α : Type} {x : Except Err α} {a : α} (h : x = .ok a) : Res.ofExcept x = .ok a := by
  rw [h]; rfl

/-- Every step either cannot be taken or succeeds, and preserves the invariant. -/
theorem step_ok (hwf : cfg.WF) (h : Inv cfg strict none st) (a : Act P K S V)
    (hl : ∀ k, strict k → ¬ LeavesEarly cfg st k a) :
    step cfg st a = .disabled ∨ ∃ st', step cfg st a = .ok st' ∧ Inv cfg strict none st' := by
  cases a with
  | bcast p v =>
    simp only [step]
    cases hj : (st.pub p).job with
    | idle =>
      have hj' : ∀ v todo, (st.pub p).job ≠ .sending v todo := by rw [hj]; intro _ _ e; cases e
      simp only
      by_cases hr : (st.pub p).running = true
      · rw [if_pos hr]
        obtain ⟨st', h1, h2⟩ := afterGate_ok (v := v) h hwf hj'
        exact Or.inr ⟨st', ofExcept_ok h1, h2⟩
      · rw [if_neg hr]
        refine Or.inr ⟨_, rfl, ?_⟩
        exact jobChange_ok h hj' (by intro _ _ e; cases e) (by intro _ _ e; cases e)
    | gate w b => exact Or.inl rfl
    | slot w b => exact Or.inl rfl
    | sending w t => exact Or.inl rfl
  | gateResume p =>
    simp only [step]
    cases hj : (st.pub p).job with
    | gate v b =>
      have hj' : ∀ v todo, (st.pub p).job ≠ .sending v todo := by rw [hj]; intro _ _ e; cases e
      cases b with
      | true =>
        obtain ⟨st', h1, h2⟩ := afterGate_ok (v := v) h hwf hj'
        exact Or.inr ⟨st', ofExcept_ok h1, h2⟩
      | false => exact Or.inl rfl
    | idle => exact Or.inl rfl
    | slot w b => exact Or.inl rfl
    | sending w t => exact Or.inl rfl
  | slotResume p =>
    simp only [step]
    cases hj : (st.pub p).job with
    | slot v b =>
      have hj' : ∀ v todo, (st.pub p).job ≠ .sending v todo := by rw [hj]; intro _ _ e; cases e
      cases b with
      | true =>
        obtain ⟨st', h1, h2⟩ := begin_ok (v := v) h hwf hj' ((h.pub p).slotFree v hj)
        exact Or.inr ⟨st', ofExcept_ok h1, h2⟩
      | false => exact Or.inl rfl
    | idle => exact Or.inl rfl
    | gate w b => exact Or.inl rfl
    | sending w t => exact Or.inl rfl
  | send p ok =>
    simp only [step]
    cases hj : (st.pub p).job with
    | sending v todo =>
      cases todo with
      | nil => exact Or.inl rfl
      | cons k todo =>
        obtain ⟨st', h1, h2⟩ := sendTo_ok (ok := ok) h hwf hj
        exact Or.inr ⟨st', ofExcept_ok h1, h2⟩
    | idle => exact Or.inl rfl
    | gate w b => exact Or.inl rfl
    | slot w b => exact Or.inl rfl
  | finish p =>
    simp only [step]
    cases hj : (st.pub p).job with
    | sending v todo =>
      cases todo with
      | nil => exact Or.inr ⟨_, rfl, finish_ok h hj⟩
      | cons k todo => exact Or.inl rfl
    | idle => exact Or.inl rfl
    | gate w b => exact Or.inl rfl
    | slot w b => exact Or.inl rfl
  | pause p =>
    exact Or.inr ⟨_, rfl, (sameJob_ok h).addNeutral trivial⟩
  | resume p =>
    refine Or.inr ⟨_, rfl, ?_⟩
    cases hj : (st.pub p).job with
    | gate v b =>
      simp only [hj]
      exact (jobChange_ok h (by rw [hj]; intro _ _ e; cases e) (by intro _ _ e; cases e)
        (by intro _ _ e; cases e)).addNeutral trivial
    | idle => simp only [hj]; rw [← hj]; exact (sameJob_ok h).addNeutral trivial
    | slot v b => simp only [hj]; rw [← hj]; exact (sameJob_ok h).addNeutral trivial
    | sending v t => simp only [hj]; rw [← hj]; exact (sameJob_ok h).addNeutral trivial
  | sync p =>
    simp only [step]
    have h1 : Inv cfg strict none (addLog (setPub st p { st.pub p with running := false }) (.syncing p)) :=
      (sameJob_ok h).addNeutral trivial
    by_cases hs : (st.pub p).bp.syncReady = true
    · rw [if_pos hs]; exact Or.inr ⟨_, rfl, h1.addNeutral trivial⟩
    · rw [if_neg hs]; exact Or.inr ⟨_, rfl, sameJob_ok h1⟩
  | syncReturn p =>
    simp only [step]
    by_cases hs : (st.pub p).syncWoken = 0
    · rw [if_pos hs]; exact Or.inl rfl
    · rw [if_neg hs]; exact Or.inr ⟨_, rfl, (sameJob_ok h).addNeutral trivial⟩
  | deliver k =>
    simp only [step]
    cases hw : (st.chan k).wire with
    | nil => exact Or.inl rfl
    | cons x rest =>
      obtain ⟨m, pl⟩ := x
      obtain ⟨st', h1, h2⟩ := deliver_ok h hw
      exact Or.inr ⟨st', ofExcept_ok h1, h2⟩
  | ack k =>
    simp only [step]
    cases ha : (st.chan k).acks with
    | nil => exact Or.inl rfl
    | cons m rest =>
      obtain ⟨st', h1, h2⟩ := ack_ok h ha
      exact Or.inr ⟨st', ofExcept_ok h1, h2⟩
  | recv s =>
    simp only [step]
    cases hq : (st.sub s).queue with
    | nil => exact Or.inl rfl
    | cons x q =>
      obtain ⟨p, m⟩ := x
      obtain ⟨k, hk⟩ := (h.sub s).linked p m (Or.inl (by rw [hq]; exact List.mem_cons_self ..))
      obtain ⟨v, h1, h2, h3⟩ := recv_ok h hq hk
      simp only [hk, h1]
      exact Or.inr ⟨_, rfl, h3⟩
  | release s j =>
    simp only [step]
    cases hj : (st.sub s).held[j]? with
    | none => exact Or.inl rfl
    | some x =>
      obtain ⟨p, m⟩ := x
      cases hk : (st.sub s).chans p with
      | none => exact Or.inl (by simp only [hk])
      | some k =>
        obtain ⟨st', h1, h2, _⟩ := release_ok h hj hk
        simp only [hk, h1]
        exact Or.inr ⟨_, rfl, h2⟩
  | link s k =>
    simp only [step]
    by_cases hc : (((st.sub s).chans (cfg.pubOf k)).isSome || (st.chan k).closed || !(st.chan k).opened) = true
    · rw [if_pos hc]; exact Or.inl rfl
    · rw [if_neg hc]
      simp at hc
      exact Or.inr ⟨_, rfl, link_ok h hc.1.1 hc.1.2 hc.2⟩
  | unlink s k =>
    simp only [step]
    split
    · exact Or.inl rfl
    · rename_i hc
      rw [not_or] at hc
      obtain ⟨hc1, hc2⟩ := hc
      have hk : (st.sub s).chans (cfg.pubOf k) = some k := by
        by_cases e : (st.sub s).chans (cfg.pubOf k) = some k
        · exact e
        · exact absurd e hc1
      obtain ⟨bp, h1, h2⟩ := unlink_ok h hk (by
        intro m hm
        exact hc2 (List.any_eq_true.2 ⟨_, hm, by simp⟩)) (fun hs m hp => hl k hs ⟨s, m, rfl, hp⟩)
      rw [h1]
      exact Or.inr ⟨_, rfl, h2⟩
  | connect k =>
    simp only [step]
    have key : (∀ v todo, (st.pub (cfg.pubOf k)).job ≠ .sending v todo) →
        (if ((st.chan k).opened || (st.chan k).closed) = true then Res.disabled
      else .ok (addLog (setPub (setChan st k { st.chan k with opened := true }) (cfg.pubOf k)
        { st.pub (cfg.pubOf k) with chans := (st.pub (cfg.pubOf k)).chans ++ [k] }) (.connected k))) = .disabled ∨
        ∃ st', (if ((st.chan k).opened || (st.chan k).closed) = true then Res.disabled
      else .ok (addLog (setPub (setChan st k { st.chan k with opened := true }) (cfg.pubOf k)
        { st.pub (cfg.pubOf k) with chans := (st.pub (cfg.pubOf k)).chans ++ [k] }) (.connected k))) = .ok st' ∧
        Inv cfg strict none st' := by
      intro hj
      by_cases hc : ((st.chan k).opened || (st.chan k).closed) = true
      · rw [if_pos hc]; exact Or.inl rfl
      · rw [if_neg hc]
        simp at hc
        exact Or.inr ⟨_, rfl, connect_ok h hj hc.1⟩
    split
    · exact Or.inl rfl
    · rename_i hne
      exact key hne
  | close k =>
    simp only [step]
    split
    · rename_i hc
      simp only [Bool.and_eq_true, List.isEmpty_iff, Bool.not_eq_true'] at hc
      refine Or.inr ⟨_, rfl, close_ok h ?_ hc.1.2⟩
      intro hm
      rw [hwf.localDirect k hm] at hc
      exact absurd hc.2 (by simp)
    · exact Or.inl rfl
  | eof k =>
    simp only [step]
    have key : (∀ v todo, (st.pub (cfg.pubOf k)).job ≠ .sending v todo) →
        (if ((st.chan k).closed && decide (k ∈ (st.pub (cfg.pubOf k)).chans)) = true then
        Res.ofExcept ((pubFree cfg (setChan st k { st.chan k with acks := [] }) k none).map
          (fun st' => setPub st' (cfg.pubOf k) { st'.pub (cfg.pubOf k) with
            chans := (st'.pub (cfg.pubOf k)).chans.filter (· != k) })) else .disabled) = .disabled ∨
        ∃ st', (if ((st.chan k).closed && decide (k ∈ (st.pub (cfg.pubOf k)).chans)) = true then
        Res.ofExcept ((pubFree cfg (setChan st k { st.chan k with acks := [] }) k none).map
          (fun st' => setPub st' (cfg.pubOf k) { st'.pub (cfg.pubOf k) with
            chans := (st'.pub (cfg.pubOf k)).chans.filter (· != k) })) else .disabled) = .ok st' ∧
        Inv cfg strict none st' := by
      intro hj
      by_cases hc : ((st.chan k).closed && decide (k ∈ (st.pub (cfg.pubOf k)).chans)) = true
      · rw [if_pos hc]
        simp only [Bool.and_eq_true] at hc
        obtain ⟨st', h1, h2⟩ := eof_ok h hj hc.1
        exact Or.inr ⟨st', ofExcept_ok h1, h2⟩
      · rw [if_neg hc]; exact Or.inl rfl
    split
    · exact Or.inl rfl
    · rename_i hne
      exact key hne

theorem holds_init (n : Nat) (c : K) (i : Nat) : ¬ (Backpressure.init n : Backpressure K).Holds c i := by
  rintro ⟨b, h1, h2⟩
  unfold Backpressure.init at h1
  have := List.mem_of_getElem? h1
  rw [List.mem_replicate] at this
  rw [this.2] at h2
  cases h2

theorem inv_init (hwf : cfg.WF) : Inv cfg strict none (init cfg : St P K S V) := by
  refine ⟨?_, ?_, ?_, ?_, ?_⟩
  · intro k
    refine CI.of (ChanInv.init (strict := strict k) (mode := cfg.mode k) (hwf.pos (cfg.pubOf k)))
      ?_ ?_ rfl rfl rfl rfl ?_ rfl
    · intro i
      constructor
      · intro hh; exact holds_init _ _ _ hh
      · intro hh; exact hh.elim
    · simp [init]
    · intro c m; simp [Unfinished, init]
  · intro p
    refine ⟨Backpressure.inv_init _, by simp [init, Backpressure.init], by simp [init], rfl, ?_, ?_, ?_, ?_, ?_, ?_⟩
    · intro v hv; cases hv
    · intro v hv; cases hv
    · intro v t hv; cases hv
    · intro k hk; simp [init] at hk
    · simp [init]
    · intro k i hh; exact absurd hh (holds_init _ _ _)
  · intro s
    refine ⟨?_, ?_, ?_, ?_, by simp [init], ?_⟩
    · intro p m hm; simp [init] at hm
    · intro p k hk; simp [init] at hk
    · intro k hk; simp [init] at hk
    · intro k m hk; simp [init] at hk
    · intro k m v hm; simp [init, recvd] at hm
  · intro s k; simp [init]
  · intro k _; rfl

end Ez.Sys
