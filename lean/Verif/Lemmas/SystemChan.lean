import Verif.Model.System
import Verif.Lemmas.Backpressure
import Verif.Lemmas.MessageCache

/-!
# The invariant of one channel

Stated over explicit parameters, so that a step elsewhere in the system that leaves the parameters
alone preserves it trivially.
-/

set_option linter.unusedSectionVars false
set_option linter.unusedSimpArgs false

namespace Ez.Sys
variable {S V : Type} [DecidableEq S]

/-- Message `m` is still of concern to the channel: on the wire, notified to a client and not finished, or
acknowledged without the publisher having seen it. -/
def Live (ch : ChanSt S V) (pend : S → Nat → Prop) (m : Nat) : Prop :=
  m ∈ ch.wire.map (·.1) ∨ (∃ c, pend c m) ∨ m ∈ ch.acks

/-- The invariant of a channel. `hold i`: the publisher has leased buffer `i` to the channel; `mem`: the
channel is connected; `sent`: number of messages handed to the channel so far; `hist`: the messages
broadcast; `pend c m`: client `c` was notified of message `m` and has not finished with it; `nxt`: the
next message to arrive; `ex`: the message that is being announced right now; `strict`: no
subscriber with unfinished messages ever left. -/
structure ChanInv (n : Nat) (mode : Mode) (hold : Nat → Prop) (mem : Prop) (sent : Nat)
    (hist : List V) (shm : List (Option (Nat × V))) (ch : ChanSt S V) (pend : S → Nat → Prop)
    (nxt : Nat) (ex : Option Nat) (strict : Prop) : Prop where
  pos : 0 < n
  bpInv : ch.bp.Inv
  bpLen : ch.bp.buffers.length = n
  cacheLen : ch.cache.slots.length = n
  bpPend : ∀ c i, ch.bp.Holds c i ↔ ∃ m, pend c m ∧ m % n = i
  live : ∀ m, Live ch pend m → ex ≠ some m → hold (m % n)
  recent : ∀ m, Live ch pend m ∨ ex = some m → m < hist.length ∧ hist.length ≤ m + n
  wireIds : ch.wire.map (·.1) = List.range' nxt ch.wire.length
  wireEnd : ch.closed = false → mem → nxt + ch.wire.length = sent
  wireNone : mode = .local ∨ ¬ mem ∨ ch.closed = true → ch.wire = []
  pendLt : ∀ c m, pend c m → m < nxt
  ackLt : ∀ m ∈ ch.acks, m < nxt
  exLt : ∀ m, ex = some m → m < nxt
  ackNodup : ch.acks.Nodup
  ackPend : ∀ m ∈ ch.acks, ∀ c, ¬ pend c m
  ackEx : ∀ m ∈ ch.acks, ex ≠ some m
  cacheOk : ∀ c m, pend c m → ex ≠ some m → ∃ e, ch.cache.slots[m % n]? = some (some e) ∧
    e.msgId = m ∧ ((mode = .shm ∧ e.object = .view (m % n)) ∨
      ∃ v, e.object = .val v ∧ hist[m]? = some v)
  shmOk : mode = .shm → ∀ m, (m ∈ ch.wire.map (·.1) ∨ (∃ c, pend c m) ∨ ex = some m) →
    ∃ v, shm[m % n]? = some (some (m, v)) ∧ hist[m]? = some v
  wireOk : ∀ m pl, (m, pl) ∈ ch.wire → (mode = .shm ∧ pl = .shm) ∨
    (∃ v, pl = .tcp v ∧ hist[m]? = some v)
  client : ∀ c m, pend c m → c ∈ ch.clients
  nodup : ch.clients.Nodup
  closedOk : ch.closed = true → ch.clients = []
  noleak : strict → ch.closed = false → ∀ i, hold i →
    ∃ m, m % n = i ∧ (Live ch pend m ∨ ex = some m)
  holdMem : ∀ i, hold i → mem
  localOpen : mode = .local → ch.closed = false
  nxtLe : nxt ≤ hist.length
  openMem : ch.opened = true → ch.closed = false → mem

namespace ChanInv
variable {n : Nat} {mode : Mode} {hold : Nat → Prop} {mem : Prop} {sent : Nat}
    {hist : List V} {shm : List (Option (Nat × V))} {ch : ChanSt S V} {pend : S → Nat → Prop}
    {nxt : Nat} {ex : Option Nat} {strict : Prop}

theorem mod_uniq {n a b len : Nat} (ha : a < len ∧ len ≤ a + n) (hb : b < len ∧ len ≤ b + n)
    (h : a % n = b % n) : a = b := by
  have key : ∀ x y : Nat, x ≤ y → y < len → len ≤ x + n → x % n = y % n → x = y := by
    intro x y hxy hy hx hm
    have h1 : y - x < n := by omega
    have h2 : (y - x) % n = 0 := by
      have := Nat.sub_mod_eq_zero_of_mod_eq hm.symm
      exact this
    rw [Nat.mod_eq_of_lt h1] at h2
    omega
  rcases Nat.le_total a b with hab | hab
  · exact key a b hab hb.1 ha.2 h
  · exact (key b a hab ha.1 hb.2 h.symm).symm

/-- Two live messages in the same buffer are the same message. -/
theorem uniq (h : ChanInv n mode hold mem sent hist shm ch pend nxt ex strict) {a b : Nat}
    (ha : Live ch pend a ∨ ex = some a) (hb : Live ch pend b ∨ ex = some b)
    (hm : a % n = b % n) : a = b :=
  mod_uniq (h.recent a ha) (h.recent b hb) hm

theorem wire_ge (h : ChanInv n mode hold mem sent hist shm ch pend nxt ex strict) {m : Nat}
    (hm : m ∈ ch.wire.map (·.1)) : nxt ≤ m := by
  rw [h.wireIds, List.mem_range'_1] at hm
  exact hm.1

theorem modlt (h : ChanInv n mode hold mem sent hist shm ch pend nxt ex strict) (m : Nat) :
    m % n < ch.bp.buffers.length := by
  rw [h.bpLen]; exact Nat.mod_lt _ h.pos

/-- A message of which a client was notified is not on the wire. -/
theorem pend_not_wire (h : ChanInv n mode hold mem sent hist shm ch pend nxt ex strict) {c : S}
    {m : Nat} (hp : pend c m) : m ∉ ch.wire.map (·.1) := by
  intro hw
  have := h.wire_ge hw
  have := h.pendLt c m hp
  omega

/-- Replace parameters by equivalent ones. -/
theorem congr (h : ChanInv n mode hold mem sent hist shm ch pend nxt ex strict)
    {hold' : Nat → Prop} {mem' : Prop} {pend' : S → Nat → Prop}
    (hh : ∀ i, hold' i ↔ hold i) (hm : mem' ↔ mem) (hp : ∀ c m, pend' c m ↔ pend c m) :
    ChanInv n mode hold' mem' sent hist shm ch pend' nxt ex strict := by
  have e1 : hold' = hold := funext fun i => propext (hh i)
  have e2 : mem' = mem := propext hm
  have e3 : pend' = pend := funext fun c => funext fun m => propext (hp c m)
  subst e1 e2 e3
  exact h

/-- A client finishes with a message (`_release_backpressure`). -/
theorem release (h : ChanInv n mode hold mem sent hist shm ch pend nxt ex strict) {c : S} {m : Nat}
    (hp : pend c m) (hex : ex ≠ some m) {bp' : Backpressure S}
    (hf : ch.bp.free c (some (m % n)) = some bp') :
    (bp'.available (m % n) = some false ∧
      ChanInv n mode hold mem sent hist shm { ch with bp := bp' }
        (fun d j => pend d j ∧ ¬ (d = c ∧ j = m)) nxt ex strict) ∨
    (bp'.available (m % n) = some true ∧ ∃ cache', ch.cache.release m = .ok cache' ∧
      ChanInv n mode hold mem sent hist shm
        { ch with bp := bp', cache := cache', acks := ch.acks ++ [m] }
        (fun d j => pend d j ∧ ¬ (d = c ∧ j = m)) nxt ex strict ∧
      ChanInv n mode (fun i => hold i ∧ i ≠ m % n) mem sent hist shm
        { ch with bp := bp', cache := cache' }
        (fun d j => pend d j ∧ ¬ (d = c ∧ j = m)) nxt ex strict) := by
  obtain ⟨b1, b2, b3⟩ := Backpressure.free_spec h.bpInv hf
  have hlive : Live ch pend m := Or.inr (Or.inl ⟨c, hp⟩)
  have hbp : ∀ d i, bp'.Holds d i ↔ ∃ j, (pend d j ∧ ¬ (d = c ∧ j = m)) ∧ j % n = i := by
    intro d i
    rw [b3, h.bpPend]
    constructor
    · rintro ⟨⟨j, hj, rfl⟩, hn⟩
      refine ⟨j, ⟨hj, ?_⟩, rfl⟩
      rintro ⟨rfl, rfl⟩
      exact hn ⟨rfl, Or.inr rfl⟩
    · rintro ⟨j, ⟨hj, hn⟩, rfl⟩
      refine ⟨⟨j, hj, rfl⟩, ?_⟩
      rintro ⟨rfl, h' | h'⟩
      · cases h'
      · simp only [Option.some.injEq] at h'
        have := h.uniq (Or.inl hlive) (Or.inl (Or.inr (Or.inl ⟨d, hj⟩))) h'
        exact hn ⟨rfl, this.symm⟩
  have hml : m % n < bp'.buffers.length := by rw [b2]; exact h.modlt m
  have hsub : ∀ j, Live ch (fun d j => pend d j ∧ ¬ (d = c ∧ j = m)) j → Live ch pend j := by
    rintro j (h' | ⟨d, h', _⟩ | h')
    · exact Or.inl h'
    · exact Or.inr (Or.inl ⟨d, h'⟩)
    · exact Or.inr (Or.inr h')
  rcases Backpressure.available_dichotomy (bp := bp') hml with ha | ha
  · right
    refine ⟨ha, ?_⟩
    have hnone : ∀ d j, (pend d j ∧ ¬ (d = c ∧ j = m)) → j % n ≠ m % n := by
      intro d j hj he
      exact (Backpressure.available_iff b1 hml).1 ha d ((hbp d _).2 ⟨j, hj, he⟩)
    obtain ⟨e, he1, he2, he3⟩ := h.cacheOk c m hp hex
    have hpos : 0 < ch.cache.slots.length := by rw [h.cacheLen]; exact h.pos
    have hrel : ch.cache.release m = .ok (ch.cache.releaseSlot (m % n)) := by
      rcases MessageCache.release_spec (c := ch.cache) (id := m) hpos with ⟨e', _, _, hr⟩ | ⟨hno, _⟩
      · rw [h.cacheLen] at hr; exact hr
      · rw [h.cacheLen] at hno; exact absurd he2 (hno e he1)
    refine ⟨_, hrel, ?_, ?_⟩
    · have hmac : m ∉ ch.acks := fun hm => h.ackPend m hm c hp
      have hback : ∀ j, Live { ch with
          bp := bp', cache := ch.cache.releaseSlot (m % n), acks := ch.acks ++ [m] }
          (fun d j => pend d j ∧ ¬ (d = c ∧ j = m)) j → Live ch pend j := by
        rintro j (h' | ⟨d, h', _⟩ | h')
        · exact Or.inl h'
        · exact Or.inr (Or.inl ⟨d, h'⟩)
        · rcases List.mem_append.1 h' with h' | h'
          · exact Or.inr (Or.inr h')
          · simp at h'; subst h'; exact hlive
      constructor
      case pos => exact h.pos
      case bpInv => exact b1
      case bpLen => exact b2.trans h.bpLen
      case cacheLen => exact (MessageCache.releaseSlot_length _ _).trans h.cacheLen
      case bpPend => exact hbp
      case live => intro j hj; exact h.live j (hback j hj)
      case recent => intro j hj; exact h.recent j (hj.imp_left (hback j))
      case wireIds => exact h.wireIds
      case wireEnd => exact h.wireEnd
      case wireNone => exact h.wireNone
      case pendLt => intro d j hj; exact h.pendLt d j hj.1
      case ackLt =>
        intro j hj
        rcases List.mem_append.1 hj with hj | hj
        · exact h.ackLt j hj
        · simp at hj; subst hj; exact h.pendLt c j hp
      case exLt => exact h.exLt
      case ackNodup =>
        rw [List.nodup_append]
        exact ⟨h.ackNodup, by simp, by intro a haa b hb hab; simp at hb; subst hab; subst hb; exact hmac haa⟩
      case ackPend =>
        intro j hj d hd
        rcases List.mem_append.1 hj with hj | hj
        · exact h.ackPend j hj d hd.1
        · simp at hj; subst hj; exact hnone d j hd rfl
      case ackEx =>
        intro j hj
        rcases List.mem_append.1 hj with hj | hj
        · exact h.ackEx j hj
        · simp at hj; subst hj; exact hex
      case cacheOk =>
        intro d j hj hne
        obtain ⟨e', h1, h2⟩ := h.cacheOk d j hj.1 hne
        refine ⟨e', ?_, h2⟩
        rw [MessageCache.releaseSlot_get]
        simp [hnone d j hj, h1]
      case shmOk =>
        intro hm j hj
        refine h.shmOk hm j ?_
        rcases hj with h' | ⟨d, h', _⟩ | h'
        · exact Or.inl h'
        · exact Or.inr (Or.inl ⟨d, h'⟩)
        · exact Or.inr (Or.inr h')
      case wireOk => exact h.wireOk
      case client => intro d j hj; exact h.client d j hj.1
      case nodup => exact h.nodup
      case closedOk => exact h.closedOk
      case noleak =>
        intro hs hc i hi
        obtain ⟨j, hj, hl⟩ := h.noleak hs hc i hi
        by_cases hjm : j = m
        · refine ⟨j, hj, Or.inl (Or.inr (Or.inr ?_))⟩
          subst hjm; simp
        · refine ⟨j, hj, hl.imp_left ?_⟩
          rintro (h' | ⟨d, h'⟩ | h')
          · exact Or.inl h'
          · exact Or.inr (Or.inl ⟨d, h', fun hh => hjm hh.2⟩)
          · exact Or.inr (Or.inr (List.mem_append_left _ h'))
      case holdMem => exact h.holdMem
      case localOpen => exact h.localOpen
      case nxtLe => exact h.nxtLe
      case openMem => exact h.openMem
    · have hback : ∀ j, Live { ch with bp := bp', cache := ch.cache.releaseSlot (m % n) }
          (fun d j => pend d j ∧ ¬ (d = c ∧ j = m)) j → Live ch pend j ∧ j ≠ m := by
        rintro j (h' | ⟨d, h', hn⟩ | h')
        · refine ⟨Or.inl h', ?_⟩
          rintro rfl; exact h.pend_not_wire hp h'
        · refine ⟨Or.inr (Or.inl ⟨d, h'⟩), ?_⟩
          rintro rfl; exact hnone d j ⟨h', hn⟩ rfl
        · refine ⟨Or.inr (Or.inr h'), ?_⟩
          rintro rfl; exact h.ackPend j h' c hp
      constructor
      case pos => exact h.pos
      case bpInv => exact b1
      case bpLen => exact b2.trans h.bpLen
      case cacheLen => exact (MessageCache.releaseSlot_length _ _).trans h.cacheLen
      case bpPend => exact hbp
      case live =>
        intro j hj hne
        refine ⟨h.live j (hback j hj).1 hne, ?_⟩
        intro he
        exact (hback j hj).2 (h.uniq (Or.inl (hback j hj).1) (Or.inl hlive) he)
      case recent => intro j hj; exact h.recent j (hj.imp_left fun x => (hback j x).1)
      case wireIds => exact h.wireIds
      case wireEnd => exact h.wireEnd
      case wireNone => exact h.wireNone
      case pendLt => intro d j hj; exact h.pendLt d j hj.1
      case ackLt => exact h.ackLt
      case exLt => exact h.exLt
      case ackNodup => exact h.ackNodup
      case ackPend => intro j hj d hd; exact h.ackPend j hj d hd.1
      case ackEx => exact h.ackEx
      case cacheOk =>
        intro d j hj hne
        obtain ⟨e', h1, h2⟩ := h.cacheOk d j hj.1 hne
        refine ⟨e', ?_, h2⟩
        rw [MessageCache.releaseSlot_get]
        simp [hnone d j hj, h1]
      case shmOk =>
        intro hm j hj
        refine h.shmOk hm j ?_
        rcases hj with h' | ⟨d, h', _⟩ | h'
        · exact Or.inl h'
        · exact Or.inr (Or.inl ⟨d, h'⟩)
        · exact Or.inr (Or.inr h')
      case wireOk => exact h.wireOk
      case client => intro d j hj; exact h.client d j hj.1
      case nodup => exact h.nodup
      case closedOk => exact h.closedOk
      case noleak =>
        intro hs hc i hi
        obtain ⟨j, hj, hl⟩ := h.noleak hs hc i hi.1
        have hjm : j ≠ m := by rintro rfl; exact hi.2 hj.symm
        refine ⟨j, hj, hl.imp_left ?_⟩
        rintro (h' | ⟨d, h'⟩ | h')
        · exact Or.inl h'
        · exact Or.inr (Or.inl ⟨d, h', fun hh => hjm hh.2⟩)
        · exact Or.inr (Or.inr h')
      case holdMem => intro i hi; exact h.holdMem i hi.1
      case localOpen => exact h.localOpen
      case nxtLe => exact h.nxtLe
      case openMem => exact h.openMem
  · left
    refine ⟨ha, ?_⟩
    obtain ⟨d, hd⟩ : ∃ d, bp'.Holds d (m % n) := by
      apply Classical.byContradiction
      intro hno
      have : bp'.available (m % n) = some true :=
        (Backpressure.available_iff b1 hml).2 (fun u hu => hno ⟨u, hu⟩)
      rw [this] at ha; cases ha
    obtain ⟨j0, hj0, hj0m⟩ := (hbp d _).1 hd
    have hj0e : j0 = m :=
      h.uniq (Or.inl (Or.inr (Or.inl ⟨d, hj0.1⟩))) (Or.inl hlive) hj0m
    constructor
    case pos => exact h.pos
    case bpInv => exact b1
    case bpLen => exact b2.trans h.bpLen
    case cacheLen => exact h.cacheLen
    case bpPend => exact hbp
    case live => intro j hj; exact h.live j (hsub j hj)
    case recent => intro j hj; exact h.recent j (hj.imp_left (hsub j))
    case wireIds => exact h.wireIds
    case wireEnd => exact h.wireEnd
    case wireNone => exact h.wireNone
    case pendLt => intro d j hj; exact h.pendLt d j hj.1
    case ackLt => exact h.ackLt
    case exLt => exact h.exLt
    case ackNodup => exact h.ackNodup
    case ackPend => intro j hj d hd; exact h.ackPend j hj d hd.1
    case ackEx => exact h.ackEx
    case cacheOk => intro d j hj hne; exact h.cacheOk d j hj.1 hne
    case shmOk =>
      intro hm j hj
      refine h.shmOk hm j ?_
      rcases hj with h' | ⟨d, h', _⟩ | h'
      · exact Or.inl h'
      · exact Or.inr (Or.inl ⟨d, h'⟩)
      · exact Or.inr (Or.inr h')
    case wireOk => exact h.wireOk
    case client => intro d j hj; exact h.client d j hj.1
    case nodup => exact h.nodup
    case closedOk => exact h.closedOk
    case noleak =>
      intro hs hc i hi
      obtain ⟨j, hj, hl⟩ := h.noleak hs hc i hi
      by_cases hjm : j = m
      · refine ⟨m, by rw [← hjm]; exact hj, Or.inl (Or.inr (Or.inl ⟨d, ?_⟩))⟩
        rw [hj0e] at hj0; exact hj0
      · refine ⟨j, hj, hl.imp_left ?_⟩
        rintro (h' | ⟨d, h'⟩ | h')
        · exact Or.inl h'
        · exact Or.inr (Or.inl ⟨d, h', fun hh => hjm hh.2⟩)
        · exact Or.inr (Or.inr h')
    case holdMem => exact h.holdMem
    case localOpen => exact h.localOpen
    case nxtLe => exact h.nxtLe
    case openMem => exact h.openMem

/-- A client is notified of the message being announced. -/
theorem notify1 {x : Nat} (h : ChanInv n mode hold mem sent hist shm ch pend nxt (some x) strict) {c : S}
    (hc : c ∈ ch.clients) {bp' : Backpressure S} (hl : ch.bp.lease c (x % n) = some bp') :
    ChanInv n mode hold mem sent hist shm { ch with bp := bp' }
      (fun d j => pend d j ∨ (d = c ∧ j = x)) nxt (some x) strict := by
  obtain ⟨b1, b2, _, b3⟩ := Backpressure.lease_spec h.bpInv hl
  have hback : ∀ j, Live { ch with bp := bp' } (fun d j => pend d j ∨ (d = c ∧ j = x)) j →
      Live ch pend j ∨ j = x := by
    rintro j (h' | ⟨d, h' | h'⟩ | h')
    · exact Or.inl (Or.inl h')
    · exact Or.inl (Or.inr (Or.inl ⟨d, h'⟩))
    · exact Or.inr h'.2
    · exact Or.inl (Or.inr (Or.inr h'))
  exact { h with
    bpInv := b1
    bpLen := b2.trans h.bpLen
    bpPend := by
      intro d i
      rw [b3, h.bpPend]
      constructor
      · rintro (⟨m, hm, rfl⟩ | ⟨rfl, rfl⟩)
        · exact ⟨m, Or.inl hm, rfl⟩
        · exact ⟨x, Or.inr ⟨rfl, rfl⟩, rfl⟩
      · rintro ⟨m, hm | ⟨rfl, rfl⟩, rfl⟩
        · exact Or.inl ⟨m, hm, rfl⟩
        · exact Or.inr ⟨rfl, rfl⟩
    live := by
      intro j hj hne
      rcases hback j hj with h' | rfl
      · exact h.live j h' hne
      · exact absurd rfl hne
    recent := by
      rintro j (hj | hj)
      · rcases hback j hj with h' | rfl
        · exact h.recent j (Or.inl h')
        · exact h.recent j (Or.inr rfl)
      · exact h.recent j (Or.inr hj)
    pendLt := by
      rintro d j (h' | ⟨_, rfl⟩)
      · exact h.pendLt d j h'
      · exact h.exLt j rfl
    ackPend := by
      rintro j hj d (h' | ⟨_, rfl⟩)
      · exact h.ackPend j hj d h'
      · exact h.ackEx j hj rfl
    cacheOk := by
      rintro d j (h' | ⟨_, rfl⟩) hne
      · exact h.cacheOk d j h' hne
      · exact absurd rfl hne
    shmOk := by
      intro hm j hj
      refine h.shmOk hm j ?_
      rcases hj with h' | ⟨d, h' | ⟨_, rfl⟩⟩ | h'
      · exact Or.inl h'
      · exact Or.inr (Or.inl ⟨d, h'⟩)
      · exact Or.inr (Or.inr rfl)
      · exact Or.inr (Or.inr h')
    client := by
      rintro d j (h' | ⟨rfl, _⟩)
      · exact h.client d j h'
      · exact hc
    noleak := by
      intro hs hcl i hi
      obtain ⟨j, hj, hl⟩ := h.noleak hs hcl i hi
      refine ⟨j, hj, hl.imp_left ?_⟩
      rintro (h' | ⟨d, h'⟩ | h')
      · exact Or.inl h'
      · exact Or.inr (Or.inl ⟨d, Or.inl h'⟩)
      · exact Or.inr (Or.inr h') }

/-- An in-process announcement reached at least one client: the object enters the cache and the buffer
is leased to the channel. -/
theorem endLocal {x : Nat} (h : ChanInv n mode hold mem sent hist shm ch pend nxt (some x) strict)
    {c : S} (hc : pend c x) {v : V} (hv : hist[x]? = some v) {cache' : MessageCache (Obj V) Unit}
    (hput : ch.cache.putLocal (.val v) x = .ok cache') (hm : mem) :
    ChanInv n mode (fun i => hold i ∨ i = x % n) mem sent hist shm { ch with cache := cache' }
      pend nxt none strict := by
  obtain ⟨p1, p2, p3, _⟩ := MessageCache.put_spec hput
  rw [h.cacheLen] at p1 p3
  exact { h with
    cacheLen := p1
    live := by
      intro j hj _
      by_cases hjx : j = x
      · exact Or.inr (by rw [hjx])
      · exact Or.inl (h.live j hj (by intro e; exact hjx (Option.some.inj e).symm))
    recent := by
      rintro j (hj | hj)
      · exact h.recent j (Or.inl hj)
      · cases hj
    exLt := by intro m hm; cases hm
    ackEx := by intro m _ hm; cases hm
    cacheOk := by
      intro d j hj _
      by_cases hjx : j = x
      · subst hjx
        exact ⟨⟨.val v, j, none⟩, by rw [p3]; simp, rfl, Or.inr ⟨v, rfl, hv⟩⟩
      · obtain ⟨e, h1, h2⟩ := h.cacheOk d j hj (by intro e; exact hjx (Option.some.inj e).symm)
        refine ⟨e, ?_, h2⟩
        rw [p3, if_neg ?_]
        · exact h1
        · intro he
          exact hjx (h.uniq (Or.inl (Or.inr (Or.inl ⟨d, hj⟩))) (Or.inr rfl) he)
    shmOk := by
      intro hmo j hj
      refine h.shmOk hmo j ?_
      rcases hj with h' | h' | h'
      · exact Or.inl h'
      · exact Or.inr (Or.inl h')
      · cases h'
    noleak := by
      intro hs hcl i hi
      rcases hi with hi | rfl
      · obtain ⟨j, hj, hl⟩ := h.noleak hs hcl i hi
        rcases hl with hl | hl
        · exact ⟨j, hj, Or.inl hl⟩
        · cases hl; exact ⟨x, hj, Or.inl (Or.inr (Or.inl ⟨c, hc⟩))⟩
      · exact ⟨x, rfl, Or.inl (Or.inr (Or.inl ⟨c, hc⟩))⟩
    holdMem := by
      rintro i (hi | _)
      · exact h.holdMem i hi
      · exact hm }

/-- An announcement is over and its message is cached and leased. -/
theorem endDeliver {x : Nat} (h : ChanInv n mode hold mem sent hist shm ch pend nxt (some x) strict)
    {c : S} (hc : pend c x) (hx : hold (x % n))
    (hent : ∃ e, ch.cache.slots[x % n]? = some (some e) ∧
      e.msgId = x ∧ ((mode = .shm ∧ e.object = .view (x % n)) ∨
      ∃ v, e.object = .val v ∧ hist[x]? = some v)) :
    ChanInv n mode hold mem sent hist shm ch pend nxt none strict := by
  exact { h with
    live := by
      intro j hj _
      by_cases hjx : j = x
      · rw [hjx]; exact hx
      · exact h.live j hj (by intro e; exact hjx (Option.some.inj e).symm)
    recent := by
      rintro j (hj | hj)
      · exact h.recent j (Or.inl hj)
      · cases hj
    exLt := by intro m hm; cases hm
    ackEx := by intro m _ hm; cases hm
    cacheOk := by
      intro d j hj _
      by_cases hjx : j = x
      · subst hjx; exact hent
      · exact h.cacheOk d j hj (by intro e; exact hjx (Option.some.inj e).symm)
    shmOk := by
      intro hmo j hj
      refine h.shmOk hmo j ?_
      rcases hj with h' | h' | h'
      · exact Or.inl h'
      · exact Or.inr (Or.inl h')
      · cases h'
    noleak := by
      intro hs hcl i hi
      obtain ⟨j, hj, hl⟩ := h.noleak hs hcl i hi
      rcases hl with hl | hl
      · exact ⟨j, hj, Or.inl hl⟩
      · cases hl; exact ⟨x, hj, Or.inl (Or.inr (Or.inl ⟨c, hc⟩))⟩ }

/-- An in-process announcement reached nobody. -/
theorem endNobody {x : Nat} (h : ChanInv n mode hold mem sent hist shm ch pend nxt (some x) strict)
    (hc : ∀ c, ¬ pend c x) (hx : ¬ hold (x % n)) :
    ChanInv n mode hold mem sent hist shm ch pend nxt none strict := by
  have hne : ∀ j, Live ch pend j → j ≠ x ∨ x ∈ ch.wire.map (·.1) := by
    rintro j (h' | ⟨c, h'⟩ | h')
    · by_cases hjx : j = x
      · subst hjx; exact Or.inr h'
      · exact Or.inl hjx
    · left; rintro rfl; exact hc c h'
    · left; rintro rfl; exact h.ackEx j h' rfl
  have hxw : x ∉ ch.wire.map (·.1) := by
    intro hw
    have := h.wire_ge hw
    have := h.exLt x rfl
    omega
  exact { h with
    live := by
      intro j hj _
      rcases hne j hj with h' | h'
      · exact h.live j hj (by intro e; exact h' (Option.some.inj e).symm)
      · exact absurd h' hxw
    recent := by
      rintro j (hj | hj)
      · exact h.recent j (Or.inl hj)
      · cases hj
    exLt := by intro m hm; cases hm
    ackEx := by intro m _ hm; cases hm
    cacheOk := by
      intro d j hj _
      exact h.cacheOk d j hj (by intro e; cases e; exact hc d hj)
    shmOk := by
      intro hmo j hj
      refine h.shmOk hmo j ?_
      rcases hj with h' | h' | h'
      · exact Or.inl h'
      · exact Or.inr (Or.inl h')
      · cases h'
    noleak := by
      intro hs hcl i hi
      obtain ⟨j, hj, hl⟩ := h.noleak hs hcl i hi
      rcases hl with hl | hl
      · exact ⟨j, hj, Or.inl hl⟩
      · cases hl; rw [← hj] at hi; exact absurd hi hx }

/-- A delivery reached nobody: the message is evicted and acknowledged. -/
theorem endNobodyAck {x : Nat} (h : ChanInv n mode hold mem sent hist shm ch pend nxt (some x) strict)
    (hc : ∀ c, ¬ pend c x) (hx : hold (x % n)) {cache' : MessageCache (Obj V) Unit}
    (hrel : ch.cache.release x = .ok cache') :
    ChanInv n mode hold mem sent hist shm { ch with cache := cache', acks := ch.acks ++ [x] }
      pend nxt none strict := by
  have hcache : cache' = ch.cache.releaseSlot (x % n) := by
    have hpos : 0 < ch.cache.slots.length := by rw [h.cacheLen]; exact h.pos
    rcases MessageCache.release_spec (c := ch.cache) (id := x) hpos with ⟨e', _, _, hr⟩ | ⟨_, hr⟩
    · rw [hrel] at hr; cases hr; rw [h.cacheLen]
    · rw [hrel] at hr; cases hr
  have hback : ∀ j, Live { ch with cache := cache', acks := ch.acks ++ [x] } pend j →
      Live ch pend j ∨ j = x := by
    rintro j (h' | h' | h')
    · exact Or.inl (Or.inl h')
    · exact Or.inl (Or.inr (Or.inl h'))
    · rcases List.mem_append.1 h' with h' | h'
      · exact Or.inl (Or.inr (Or.inr h'))
      · simp at h'; exact Or.inr h'
  exact { h with
    cacheLen := by rw [hcache]; exact (MessageCache.releaseSlot_length _ _).trans h.cacheLen
    live := by
      intro j hj _
      by_cases hjx : j = x
      · rw [hjx]; exact hx
      · rcases hback j hj with h' | h'
        · exact h.live j h' (by intro e; exact hjx (Option.some.inj e).symm)
        · exact absurd h' hjx
    recent := by
      rintro j (hj | hj)
      · rcases hback j hj with h' | h'
        · exact h.recent j (Or.inl h')
        · exact h.recent j (Or.inr (by rw [h']))
      · cases hj
    ackLt := by
      intro j hj
      rcases List.mem_append.1 hj with hj | hj
      · exact h.ackLt j hj
      · simp at hj; subst hj; exact h.exLt j rfl
    exLt := by intro m hm; cases hm
    ackNodup := by
      rw [List.nodup_append]
      refine ⟨h.ackNodup, by simp, ?_⟩
      intro a ha b hb hab
      simp at hb; subst hab; subst hb
      exact h.ackEx a ha rfl
    ackPend := by
      intro j hj d hd
      rcases List.mem_append.1 hj with hj | hj
      · exact h.ackPend j hj d hd
      · simp at hj; subst hj; exact hc d hd
    ackEx := by intro m _ hm; cases hm
    cacheOk := by
      intro d j hj _
      have hjx : j ≠ x := by rintro rfl; exact hc d hj
      obtain ⟨e, h1, h2⟩ := h.cacheOk d j hj (by intro e; exact hjx (Option.some.inj e).symm)
      refine ⟨e, ?_, h2⟩
      have hne : j % n ≠ x % n := fun he =>
        hjx (h.uniq (Or.inl (Or.inr (Or.inl ⟨d, hj⟩))) (Or.inr rfl) he)
      rw [hcache, MessageCache.releaseSlot_get]
      simp [hne, h1]
    shmOk := by
      intro hmo j hj
      refine h.shmOk hmo j ?_
      rcases hj with h' | h' | h'
      · exact Or.inl h'
      · exact Or.inr (Or.inl h')
      · cases h'
    noleak := by
      intro hs hcl i hi
      obtain ⟨j, hj, hl⟩ := h.noleak hs hcl i hi
      refine ⟨j, hj, Or.inl ?_⟩
      rcases hl with (h' | h' | h') | hl
      · exact Or.inl h'
      · exact Or.inr (Or.inl h')
      · exact Or.inr (Or.inr (List.mem_append_left _ h'))
      · cases hl; exact Or.inr (Or.inr (by simp)) }

/-- The publisher handles the oldest acknowledgement. -/
theorem ackPop (h : ChanInv n mode hold mem sent hist shm ch pend nxt none strict) {m : Nat}
    {rest : List Nat} (ha : ch.acks = m :: rest) :
    ChanInv n mode (fun i => hold i ∧ i ≠ m % n) mem sent hist shm { ch with acks := rest }
      pend nxt none strict := by
  have hmem : m ∈ ch.acks := by rw [ha]; simp
  have hsub : ∀ j ∈ rest, j ∈ ch.acks := by intro j hj; rw [ha]; simp [hj]
  have hnd := h.ackNodup
  rw [ha, List.nodup_cons] at hnd
  have hlm : Live ch pend m := Or.inr (Or.inr hmem)
  have hback : ∀ j, Live { ch with acks := rest } pend j → Live ch pend j ∧ j ≠ m := by
    rintro j (h' | ⟨d, h'⟩ | h')
    · refine ⟨Or.inl h', ?_⟩
      rintro rfl
      have := h.wire_ge h'
      have := h.ackLt j hmem
      omega
    · refine ⟨Or.inr (Or.inl ⟨d, h'⟩), ?_⟩
      rintro rfl
      exact h.ackPend j hmem d h'
    · refine ⟨Or.inr (Or.inr (hsub j h')), ?_⟩
      rintro rfl
      exact hnd.1 h'
  exact { h with
    live := by
      intro j hj hne
      refine ⟨h.live j (hback j hj).1 hne, fun he => ?_⟩
      exact (hback j hj).2 (h.uniq (Or.inl (hback j hj).1) (Or.inl hlm) he)
    recent := by intro j hj; exact h.recent j (hj.imp_left fun x => (hback j x).1)
    ackLt := by intro j hj; exact h.ackLt j (hsub j hj)
    ackNodup := hnd.2
    ackPend := by intro j hj; exact h.ackPend j (hsub j hj)
    ackEx := by intro j hj; exact h.ackEx j (hsub j hj)
    noleak := by
      intro hs hcl i hi
      obtain ⟨j, hj, hl⟩ := h.noleak hs hcl i hi.1
      have hjm : j ≠ m := by rintro rfl; exact hi.2 hj.symm
      refine ⟨j, hj, hl.imp_left ?_⟩
      rintro (h' | h' | h')
      · exact Or.inl h'
      · exact Or.inr (Or.inl h')
      · rw [ha] at h'
        rcases List.mem_cons.1 h' with h' | h'
        · exact absurd h' hjm
        · exact Or.inr (Or.inr h')
    holdMem := by intro i hi; exact h.holdMem i hi.1 }

/-- The publisher sends the current message to the channel. -/
theorem wirePush {x : Nat} (h : ChanInv n mode hold mem x hist shm ch pend nxt none strict)
    (hlen : hist.length = x + 1) (hm : mem) (hcl : ch.closed = false) (hmode : mode ≠ .local)
    {pl : Payload V}
    (hpl : (mode = .shm ∧ pl = .shm) ∨ (∃ v, pl = .tcp v ∧ hist[x]? = some v))
    (hshm : mode = .shm → ∃ v, shm[x % n]? = some (some (x, v)) ∧ hist[x]? = some v) :
    ChanInv n mode (fun i => hold i ∨ i = x % n) mem (x + 1) hist shm
      { ch with wire := ch.wire ++ [(x, pl)] } pend nxt none strict := by
  have hend := h.wireEnd hcl hm
  have hback : ∀ j, Live { ch with wire := ch.wire ++ [(x, pl)] } pend j → Live ch pend j ∨ j = x := by
    rintro j (h' | h' | h')
    · rw [List.map_append, List.mem_append] at h'
      rcases h' with h' | h'
      · exact Or.inl (Or.inl h')
      · simp at h'; exact Or.inr h'
    · exact Or.inl (Or.inr (Or.inl h'))
    · exact Or.inl (Or.inr (Or.inr h'))
  exact { h with
    live := by
      intro j hj hne
      rcases hback j hj with h' | h'
      · exact Or.inl (h.live j h' hne)
      · exact Or.inr (by rw [h'])
    recent := by
      rintro j (hj | hj)
      · rcases hback j hj with h' | h'
        · exact h.recent j (Or.inl h')
        · have := h.pos; omega
      · cases hj
    wireIds := by
      simp only [List.map_append, List.map_cons, List.map_nil, List.length_append,
        List.length_cons, List.length_nil]
      rw [h.wireIds, List.range'_concat]
      simp
      omega
    wireEnd := by
      intro _ _
      simp only [List.length_append, List.length_cons, List.length_nil]
      omega
    wireNone := by
      rintro (h' | h' | h')
      · exact absurd h' hmode
      · exact absurd hm h'
      · have : ch.closed = true := h'
        rw [hcl] at this; cases this
    shmOk := by
      intro hmo j hj
      rcases hj with h' | h' | h'
      · rw [List.map_append, List.mem_append] at h'
        rcases h' with h' | h'
        · exact h.shmOk hmo j (Or.inl h')
        · simp at h'; subst h'; exact hshm hmo
      · exact h.shmOk hmo j (Or.inr (Or.inl h'))
      · cases h'
    wireOk := by
      intro j pl' hj
      rcases List.mem_append.1 hj with hj | hj
      · exact h.wireOk j pl' hj
      · simp at hj; obtain ⟨rfl, rfl⟩ := hj; exact hpl
    noleak := by
      intro hs hcl i hi
      rcases hi with hi | rfl
      · obtain ⟨j, hj, hl⟩ := h.noleak hs hcl i hi
        refine ⟨j, hj, hl.imp_left ?_⟩
        rintro (h' | h' | h')
        · exact Or.inl (by rw [List.map_append]; exact List.mem_append_left _ h')
        · exact Or.inr (Or.inl h')
        · exact Or.inr (Or.inr h')
      · exact ⟨x, rfl, Or.inl (Or.inl (by simp))⟩
    holdMem := by
      rintro i (hi | _)
      · exact h.holdMem i hi
      · exact hm }

/-- The publisher leases a buffer to a channel that is already closed. -/
theorem closedLease {i0 : Nat} (h : ChanInv n mode hold mem sent hist shm ch pend nxt none strict)
    (hm : mem) (hcl : ch.closed = true) (sent' : Nat) :
    ChanInv n mode (fun i => hold i ∨ i = i0) mem sent' hist shm ch pend nxt none strict := by
  exact { h with
    live := by intro j hj hne; exact Or.inl (h.live j hj hne)
    wireEnd := by intro hc; rw [hcl] at hc; cases hc
    noleak := by intro _ hc; rw [hcl] at hc; cases hc
    holdMem := by
      rintro i (hi | _)
      · exact h.holdMem i hi
      · exact hm }

/-- The counter `sent` is irrelevant for closed or unconnected channels. -/
theorem sentIrrel (h : ChanInv n mode hold mem sent hist shm ch pend nxt ex strict) (sent' : Nat)
    (hs : ch.closed = false → mem → sent' = sent) :
    ChanInv n mode hold mem sent' hist shm ch pend nxt ex strict := by
  exact { h with wireEnd := by intro hc hm; rw [hs hc hm]; exact h.wireEnd hc hm }

/-- The oldest message on the wire arrives and is put into the cache. -/
theorem wirePop (h : ChanInv n mode hold mem sent hist shm ch pend nxt none strict) {m : Nat}
    {pl : Payload V} {rest : List (Nat × Payload V)} (hw : ch.wire = (m, pl) :: rest)
    {o : Obj V} {cache' : MessageCache (Obj V) Unit}
    (hput : ch.cache.putFromMem () o m = .ok cache') :
    m = nxt ∧ hold (m % n) ∧ ChanInv n mode hold mem sent hist shm { ch with cache := cache', wire := rest }
      pend (nxt + 1) (some m) strict := by
  obtain ⟨p1, p2, p3, _⟩ := MessageCache.put_spec hput
  rw [h.cacheLen] at p1 p3
  have hids := h.wireIds
  rw [hw] at hids
  simp only [List.map_cons, List.length_cons, List.range'_succ, List.cons.injEq] at hids
  have hmw : m ∈ ch.wire.map (·.1) := by rw [hw]; simp
  have hlm : Live ch pend m := Or.inl hmw
  have hback : ∀ j, Live { ch with cache := cache', wire := rest } pend j → Live ch pend j := by
    rintro j (h' | h' | h')
    · exact Or.inl (by rw [hw, List.map_cons]; exact List.mem_cons_of_mem _ h')
    · exact Or.inr (Or.inl h')
    · exact Or.inr (Or.inr h')
  refine ⟨hids.1, h.live m hlm (by simp), ?_⟩
  have hne : ∀ c j, pend c j → j ≠ m := by
    intro c j hj
    have := h.pendLt c j hj
    omega
  exact { h with
    nxtLe := by have := (h.recent m (Or.inl hlm)).1; have := hids.1; omega
    cacheLen := p1
    live := by intro j hj _; exact h.live j (hback j hj) (by simp)
    recent := by
      rintro j (hj | hj)
      · exact h.recent j (Or.inl (hback j hj))
      · cases hj; exact h.recent m (Or.inl hlm)
    wireIds := hids.2
    wireEnd := by
      intro hc hm
      have := h.wireEnd hc hm
      rw [hw] at this
      simp at this ⊢
      omega
    wireNone := by
      intro hc
      have := h.wireNone hc
      rw [hw] at this; cases this
    pendLt := by intro c j hj; have := h.pendLt c j hj; omega
    ackLt := by intro j hj; have := h.ackLt j hj; omega
    exLt := by intro j hj; cases hj; omega
    ackEx := by
      intro j hj he
      cases he
      have := h.ackLt m hj
      omega
    cacheOk := by
      intro d j hj _
      obtain ⟨e, h1, h2⟩ := h.cacheOk d j hj (by simp)
      refine ⟨e, ?_, h2⟩
      rw [p3, if_neg ?_]
      · exact h1
      · intro he
        exact hne d j hj (h.uniq (Or.inl (Or.inr (Or.inl ⟨d, hj⟩))) (Or.inl hlm) he)
    shmOk := by
      intro hmo j hj
      refine h.shmOk hmo j ?_
      rcases hj with h' | h' | h'
      · exact Or.inl (by rw [hw, List.map_cons]; exact List.mem_cons_of_mem _ h')
      · exact Or.inr (Or.inl h')
      · cases h'; exact Or.inl hmw
    wireOk := by
      intro j pl' hj
      exact h.wireOk j pl' (by rw [hw]; exact List.mem_cons_of_mem _ hj)
    noleak := by
      intro hs hcl i hi
      obtain ⟨j, hj, hl⟩ := h.noleak hs hcl i hi
      refine ⟨j, hj, ?_⟩
      rcases hl with (h' | h' | h') | hl
      · rw [hw, List.map_cons] at h'
        rcases List.mem_cons.1 h' with h' | h'
        · right; rw [h']
        · exact Or.inl (Or.inl h')
      · exact Or.inl (Or.inr (Or.inl h'))
      · exact Or.inl (Or.inr (Or.inr h'))
      · cases hl }

/-- The publisher starts a broadcast whose buffer is not leased to the channel. -/
theorem histAppend (h : ChanInv n mode hold mem sent hist shm ch pend nxt none strict) (v : V)
    (hfree : ¬ hold (hist.length % n)) :
    ChanInv n mode hold mem sent (hist ++ [v]) shm ch pend nxt none strict := by
  have hget : ∀ (m : Nat) (w : V), hist[m]? = some w → (hist ++ [v])[m]? = some w := by
    intro m w hm
    rw [List.getElem?_append]
    have : m < hist.length := by
      rcases Nat.lt_or_ge m hist.length with h' | h'
      · exact h'
      · rw [List.getElem?_eq_none h'] at hm; cases hm
    rw [if_pos this]; exact hm
  exact { h with
    nxtLe := by have := h.nxtLe; simp; omega
    recent := by
      rintro j (hj | hj)
      · have h1 := h.recent j (Or.inl hj)
        have h2 := h.live j hj (by simp)
        have h3 : j + n ≠ hist.length := by
          intro he
          rw [← he, Nat.add_mod_right] at hfree
          exact hfree h2
        simp; omega
      · cases hj
    cacheOk := by
      intro d j hj hne
      obtain ⟨e, h1, h2, h3⟩ := h.cacheOk d j hj hne
      refine ⟨e, h1, h2, h3.imp_right ?_⟩
      rintro ⟨w, hw, hw'⟩
      exact ⟨w, hw, hget _ _ hw'⟩
    shmOk := by
      intro hmo j hj
      obtain ⟨w, h1, h2⟩ := h.shmOk hmo j hj
      exact ⟨w, h1, hget _ _ h2⟩
    wireOk := by
      intro j pl hj
      refine (h.wireOk j pl hj).imp_right ?_
      rintro ⟨w, hw, hw'⟩
      exact ⟨w, hw, hget _ _ hw'⟩ }

/-- The in-process announcement of a new message starts. -/
theorem localStart (h : ChanInv n .local hold mem sent hist shm ch pend nxt none strict) (v : V)
    (hm : mem) (hsent : sent = hist.length) (hfree : ¬ hold (hist.length % n)) :
    nxt = hist.length ∧ ChanInv n .local hold mem (sent + 1) (hist ++ [v]) shm ch pend (nxt + 1)
      (some hist.length) strict := by
  have hw : ch.wire = [] := h.wireNone (Or.inl rfl)
  have hend := h.wireEnd (h.localOpen rfl) hm
  rw [hw] at hend
  simp at hend
  have h' := h.histAppend v hfree
  refine ⟨by omega, ?_⟩
  exact { h' with
    nxtLe := by have := h.nxtLe; simp; omega
    live := by intro j hj _; exact h'.live j hj (by simp)
    recent := by
      rintro j (hj | hj)
      · exact h'.recent j (Or.inl hj)
      · cases hj; have := h.pos; simp; omega
    wireIds := by rw [hw]; rfl
    wireEnd := by intro _ _; rw [hw]; simp; omega
    pendLt := by intro c j hj; have := h.pendLt c j hj; omega
    ackLt := by intro j hj; have := h.ackLt j hj; omega
    exLt := by intro j hj; cases hj; omega
    ackEx := by
      intro j hj he
      cases he
      have := h.ackLt _ hj
      omega
    cacheOk := by intro c j hj _; exact h'.cacheOk c j hj (by simp)
    shmOk := by intro hmo; cases hmo
    noleak := by
      intro hs hcl i hi
      obtain ⟨j, hj, hl⟩ := h'.noleak hs hcl i hi
      refine ⟨j, hj, ?_⟩
      rcases hl with hl | hl
      · exact Or.inl hl
      · cases hl }

/-- The current message is written to shared memory. -/
theorem shmWrite {x : Nat} {v : V} (h : ChanInv n mode hold mem sent hist shm ch pend nxt ex strict)
    (hlen : hist.length = x + 1) (hv : hist[x]? = some v) (hshm : shm.length = n) :
    ChanInv n mode hold mem sent hist (shm.set (x % n) (some (x, v))) ch pend nxt ex strict := by
  exact { h with
    shmOk := by
      intro hmo j hj
      have hl : Live ch pend j ∨ ex = some j := by
        rcases hj with h' | h' | h'
        · exact Or.inl (Or.inl h')
        · exact Or.inl (Or.inr (Or.inl h'))
        · exact Or.inr h'
      by_cases he : x % n = j % n
      · have hr := h.recent j hl
        have hjx : j = x := mod_uniq hr (by have := h.pos; omega) he.symm
        subst hjx
        have := Nat.mod_lt j h.pos
        exact ⟨v, by rw [List.getElem?_set_self (by omega)], hv⟩
      · obtain ⟨w, h1, h2⟩ := h.shmOk hmo j hj
        exact ⟨w, by rw [List.getElem?_set_ne he]; exact h1, h2⟩ }

/-- A client registers. -/
theorem link (h : ChanInv n mode hold mem sent hist shm ch pend nxt ex strict) {c : S}
    (hc : c ∉ ch.clients) (hcl : ch.closed = false) :
    ChanInv n mode hold mem sent hist shm { ch with clients := ch.clients ++ [c] } pend nxt ex
      strict := by
  exact { h with
    client := by intro d j hj; exact List.mem_append_left _ (h.client d j hj)
    nodup := by
      rw [List.nodup_append]
      refine ⟨h.nodup, by simp, ?_⟩
      intro a ha b hb hab
      simp at hb; subst hab; subst hb; exact hc ha
    closedOk := by
      intro h'
      have : ch.closed = true := h'
      rw [hcl] at this; cases this }

/-- A client unregisters. -/
theorem unlink (h : ChanInv n mode hold mem sent hist shm ch pend nxt none strict) {c : S}
    {bp' : Backpressure S} (hf : ch.bp.free c none = some bp')
    (hs : strict → ∀ m, ¬ pend c m) :
    ChanInv n mode hold mem sent hist shm
      { ch with bp := bp', clients := ch.clients.filter (· != c) }
      (fun d j => pend d j ∧ d ≠ c) nxt none strict := by
  obtain ⟨b1, b2, b3⟩ := Backpressure.free_spec h.bpInv hf
  have hback : ∀ j, Live { ch with bp := bp', clients := ch.clients.filter (· != c) }
      (fun d j => pend d j ∧ d ≠ c) j → Live ch pend j := by
    rintro j (h' | ⟨d, h', _⟩ | h')
    · exact Or.inl h'
    · exact Or.inr (Or.inl ⟨d, h'⟩)
    · exact Or.inr (Or.inr h')
  exact { h with
    bpInv := b1
    bpLen := b2.trans h.bpLen
    bpPend := by
      intro d i
      rw [b3, h.bpPend]
      constructor
      · rintro ⟨⟨m, hm, rfl⟩, hn⟩
        exact ⟨m, ⟨hm, fun e => hn ⟨e, Or.inl rfl⟩⟩, rfl⟩
      · rintro ⟨m, ⟨hm, hn⟩, rfl⟩
        exact ⟨⟨m, hm, rfl⟩, fun e => hn e.1⟩
    live := by intro j hj; exact h.live j (hback j hj)
    recent := by intro j hj; exact h.recent j (hj.imp_left (hback j))
    pendLt := by intro d j hj; exact h.pendLt d j hj.1
    ackPend := by intro j hj d hd; exact h.ackPend j hj d hd.1
    cacheOk := by intro d j hj; exact h.cacheOk d j hj.1
    shmOk := by
      intro hmo j hj
      refine h.shmOk hmo j ?_
      rcases hj with h' | ⟨d, h', _⟩ | h'
      · exact Or.inl h'
      · exact Or.inr (Or.inl ⟨d, h'⟩)
      · cases h'
    client := by
      intro d j hj
      rw [List.mem_filter]
      exact ⟨h.client d j hj.1, by simpa using hj.2⟩
    nodup := h.nodup.filter _
    closedOk := by
      intro hcl
      have : ch.clients = [] := h.closedOk hcl
      simp [this]
    noleak := by
      intro hst hcl i hi
      obtain ⟨j, hj, hl⟩ := h.noleak hst hcl i hi
      refine ⟨j, hj, hl.imp_left ?_⟩
      rintro (h' | ⟨d, h'⟩ | h')
      · exact Or.inl h'
      · refine Or.inr (Or.inl ⟨d, h', ?_⟩)
        rintro rfl
        exact hs hst j h'
      · exact Or.inr (Or.inr h') }

/-- An unconnected channel is concerned with no message. -/
theorem not_live (h : ChanInv n mode hold mem sent hist shm ch pend nxt none strict) (hm : ¬ mem)
    (m : Nat) : ¬ Live ch pend m := by
  intro hl
  exact hm (h.holdMem _ (h.live m hl (by simp)))

/-- The channel is connected. -/
theorem connect (h : ChanInv n mode hold mem sent hist shm ch pend nxt none strict) (hm : ¬ mem) :
    ChanInv n mode hold True hist.length hist shm { ch with opened := true } pend hist.length none
      strict := by
  have hw : ch.wire = [] := h.wireNone (Or.inr (Or.inl hm))
  exact { h with
    nxtLe := Nat.le_refl _
    openMem := by intro _ _; trivial
    wireIds := by simp [hw]
    wireEnd := by intro _ _; simp [hw]
    wireNone := by intro _; exact hw
    pendLt := by intro c m hp; exact absurd (Or.inr (Or.inl ⟨c, hp⟩)) (h.not_live hm m)
    ackLt := by intro m ha; exact absurd (Or.inr (Or.inr ha)) (h.not_live hm m)
    exLt := by intro m hm; cases hm
    holdMem := by intro _ _; trivial }

/-- The channel without clients is closed. -/
theorem close (h : ChanInv n mode hold mem sent hist shm ch pend nxt none strict)
    (hc : ch.clients = []) (hmode : mode ≠ .local) :
    ChanInv n mode hold mem sent hist shm
      { ch with closed := true, wire := [], cache := ch.cache.clear } pend nxt none strict := by
  have hnp : ∀ c m, ¬ pend c m := by
    intro c m hp
    have := h.client c m hp
    rw [hc] at this; cases this
  have hback : ∀ j, Live { ch with closed := true, wire := [], cache := ch.cache.clear } pend j →
      Live ch pend j := by
    rintro j (h' | ⟨d, h'⟩ | h')
    · cases h'
    · exact absurd h' (hnp d j)
    · exact Or.inr (Or.inr h')
  exact { h with
    openMem := by intro _ h'; cases h'
    cacheLen := (MessageCache.clear_length _).trans h.cacheLen
    live := by intro j hj; exact h.live j (hback j hj)
    recent := by intro j hj; exact h.recent j (hj.imp_left (hback j))
    wireIds := rfl
    wireEnd := by intro h'; cases h'
    wireNone := by intro _; rfl
    cacheOk := by intro d j hj; exact absurd hj (hnp d j)
    shmOk := by
      intro hmo j hj
      rcases hj with h' | ⟨d, h'⟩ | h'
      · cases h'
      · exact absurd h' (hnp d j)
      · cases h'
    wireOk := by intro m pl hm; cases hm
    closedOk := by intro _; exact hc
    noleak := by intro _ h'; cases h'
    localOpen := by intro hl; exact absurd hl hmode }

/-- The publisher notices that the channel is closed. -/
theorem eof (h : ChanInv n mode hold mem sent hist shm ch pend nxt none strict)
    (hcl : ch.closed = true) (sent' : Nat) :
    ChanInv n mode (fun _ => False) False sent' hist shm { ch with acks := [] } pend nxt none
      strict := by
  have hnp : ∀ c m, ¬ pend c m := by
    intro c m hp
    have := h.client c m hp
    rw [h.closedOk hcl] at this; cases this
  have hw : ch.wire = [] := h.wireNone (Or.inr (Or.inr hcl))
  have hback : ∀ j, ¬ Live { ch with acks := [] } pend j := by
    rintro j (h' | ⟨d, h'⟩ | h')
    · have : j ∈ ch.wire.map (·.1) := h'
      rw [hw] at this; cases this
    · exact absurd h' (hnp d j)
    · cases h'
  exact { h with
    openMem := by intro _ h'; rw [hcl] at h'; cases h'
    live := by intro j hj; exact absurd hj (hback j)
    recent := by
      rintro j (hj | hj)
      · exact absurd hj (hback j)
      · cases hj
    wireEnd := by intro _ h'; cases h'
    wireNone := by intro _; exact hw
    ackLt := by intro m hm; cases hm
    ackNodup := by simp
    ackPend := by intro m hm; cases hm
    ackEx := by intro m hm; cases hm
    noleak := by intro _ _ i hi; cases hi
    holdMem := by intro i hi; cases hi }

/-- The channel before anything happened. -/
theorem init (hn : 0 < n) :
    ChanInv n mode (fun _ => False) False 0 ([] : List V) shm
      { bp := Backpressure.init n, cache := MessageCache.init n, clients := ([] : List S)
        wire := [], acks := [], opened := false, closed := false } (fun _ _ => False) 0 none
        strict where
  pos := hn
  bpInv := Backpressure.inv_init n
  bpLen := by simp [Backpressure.init]
  cacheLen := by simp [MessageCache.init]
  bpPend := by
    intro c i
    constructor
    · rintro ⟨b, hb, hc⟩
      simp only [Backpressure.init] at hb
      rw [List.getElem?_replicate] at hb
      split at hb
      · cases hb; simp [BufferLease.init] at hc
      · cases hb
    · rintro ⟨_, h, _⟩; cases h
  live := by rintro m (h | ⟨_, h⟩ | h) <;> cases h
  recent := by rintro m ((h | ⟨_, h⟩ | h) | h) <;> cases h
  wireIds := rfl
  wireEnd := by intro _ h; cases h
  wireNone := by intro _; rfl
  pendLt := by intro _ _ h; cases h
  ackLt := by intro _ h; cases h
  exLt := by intro _ h; cases h
  ackNodup := by simp
  ackPend := by intro _ h; cases h
  ackEx := by intro _ h; cases h
  cacheOk := by intro _ _ h; cases h
  shmOk := by rintro _ m (h | ⟨_, h⟩ | h) <;> cases h
  wireOk := by intro _ _ h; cases h
  client := by intro _ _ h; cases h
  nodup := by simp
  closedOk := by intro _; rfl
  noleak := by intro _ _ _ h; cases h
  holdMem := by intro _ h; cases h
  localOpen := by intro _; rfl
  nxtLe := by simp
  openMem := by intro h; cases h

end ChanInv
end Ez.Sys
