import Verif.Lemmas.Shm
import Verif.Props.Marshal
import Verif.Props.Backpressure

/-!
# C16 - C18: shared memory segments
-/

set_option linter.unusedSimpArgs false

namespace Ez
variable {Obj : Type}

/-- Some process attaches the segment and writes `header`, `bufs` through the view of slot `i`
(successfully or not). -/
structure SlotWrite where
  slot : Nat
  header : Bytes
  bufs : List Bytes

/-- The segment after such a write. -/
def SlotWrite.apply (mem : Bytes) (w : SlotWrite) : Bytes :=
  match shmView mem (shmAttach mem) w.slot with
  | none => mem
  | some view => shmPut mem (shmAttach mem) w.slot (write view w.header w.bufs).1

theorem length_write (mem header : Bytes) (bufs : List Bytes) :
    (write mem header bufs).1.length = mem.length := by
  rcases Nat.lt_or_ge mem.length (header.length + bufs.flatten.length) with h | h
  · exact (write_fail mem header bufs h).2
  · rw [write_ok _ _ _ h]
    simp only [List.length_append, List.length_drop]
    omega

theorem slotWrite_geometry {mem : Bytes} {n bs : Nat} (h : Geometry mem n bs) (w : SlotWrite) :
    Geometry (w.apply mem) n bs ∧ (w.apply mem).length = mem.length ∧
    ∀ k, (∀ s e, (shmAttach mem).segs[w.slot]? = some (s, e) → k < s ∨ e ≤ k) →
      (w.apply mem)[k]? = mem[k]? := by
  unfold SlotWrite.apply
  by_cases hi : w.slot < n
  · rw [view_eq h hi]
    simp only
    have hl : (write (slice mem (w.slot * bs + 16) (w.slot * bs + bs)) w.header w.bufs).1.length =
        bs - 16 := by rw [length_write, length_view h hi]
    have hb := slot_bound h hi
    have hbig := h.big
    rw [put_eq h hi]
    refine ⟨put_geometry h hi _ hl, length_putAt _ _ _ (by omega), ?_⟩
    intro k hk
    have := hk _ _ (segs_get h hi)
    rw [getElem?_putAt _ _ _ _ (by omega), if_neg (by omega)]
  · have : shmView mem (shmAttach mem) w.slot = none := by
      unfold shmView
      rw [attach_eq h]
      simp
      omega
    rw [this]
    exact ⟨h, rfl, fun _ _ => rfl⟩

theorem slotWrites_geometry {mem : Bytes} {n bs : Nat} (h : Geometry mem n bs)
    (ws : List SlotWrite) : Geometry (ws.foldl SlotWrite.apply mem) n bs ∧
      (ws.foldl SlotWrite.apply mem).length = mem.length := by
  induction ws generalizing mem with
  | nil => exact ⟨h, rfl⟩
  | cons w ws ih =>
    obtain ⟨g1, g2, _⟩ := slotWrite_geometry h w
    obtain ⟨i1, i2⟩ := ih g1
    exact ⟨i1, by rw [List.foldl_cons, i2, g2]⟩

/-- **C16.** Take any segment the server creates and any sequence of slot writes by any processes. Every
process attaching afterwards sees the requested number of slots; each slot lies behind the 16
byte header and inside the segment, all have the same size, which is the advertised one and
at least the requested one; different slots do not overlap; and all processes see the same slots. A fresh
segment reads as "no message" in every slot. -/
theorem C16_shm_slots (n req slack : Nat) (mem : Bytes) (h : shmCreate n req slack = some mem)
    (ws : List SlotWrite) :
    let mem' := ws.foldl SlotWrite.apply mem
    let ctx := shmAttach mem'
    ctx.numBuffers = n ∧ ctx.segs.length = n ∧ mem'.length = mem.length ∧ ctx = shmAttach mem ∧
    (∀ (i s e : Nat), ctx.segs[i]? = some (s, e) →
      16 ≤ s ∧ e ≤ mem'.length ∧ (e : Int) - s = ctx.size ∧ s + req ≤ e) ∧
    (∀ (i j s e s' e' : Nat), i < j → ctx.segs[i]? = some (s, e) → ctx.segs[j]? = some (s', e') → e ≤ s') ∧
    (∀ (i : Nat) view, shmView mem (shmAttach mem) i = some view →
      msgIdOf view = .error .uninitialized) := by
  obtain ⟨g, hl⟩ := create_geometry h
  obtain ⟨g', hl'⟩ := slotWrites_geometry g ws
  simp only
  rw [attach_eq g', attach_eq g]
  have hpos := g.pos
  refine ⟨rfl, by simp, hl', rfl, ?_, ?_, ?_⟩
  · intro i s e hh
    simp only [List.getElem?_map, List.getElem?_range] at hh
    by_cases hi : i < n
    · simp [hi] at hh
      obtain ⟨rfl, rfl⟩ := hh
      have hb := slot_bound g' hi
      refine ⟨by omega, hb, ?_, by omega⟩
      simp only [ShmContext.size]
      omega
    · simp [hi] at hh
  · intro i j s e s' e' hij h1 h2
    simp only [List.getElem?_map] at h1 h2
    by_cases hj : j < n
    · simp [hj] at h2
      have hi : i < n := by omega
      simp [hi] at h1
      obtain ⟨rfl, rfl⟩ := h1
      obtain ⟨rfl, rfl⟩ := h2
      have := slot_order (bs := req + 16 * n) hij
      omega
    · simp [hj] at h2
  · intro i view hv
    have hi : i < n := by
      unfold shmView at hv
      rcases Nat.lt_or_ge i n with hi | hi
      · exact hi
      · rw [List.getElem?_eq_none (by simpa using hi)] at hv
        cases hv
    have := view_eq g hi
    rw [attach_eq g] at this
    rw [this] at hv
    injection hv with hv
    rw [← hv]
    exact msgIdOf_uninit (create_uninit h i hi)

/-- **C15 (in the segment).** Writing through the view of one slot, whether it succeeds or fails,
changes no byte of the segment outside that slot. -/
theorem C15_slot_write_frame (n req slack : Nat) (mem : Bytes)
    (h : shmCreate n req slack = some mem) (ws : List SlotWrite) (w : SlotWrite) :
    let mem' := ws.foldl SlotWrite.apply mem
    (w.apply mem').length = mem'.length ∧
    ∀ k, (∀ s e, (shmAttach mem').segs[w.slot]? = some (s, e) → k < s ∨ e ≤ k) →
      (w.apply mem')[k]? = mem'[k]? := by
  obtain ⟨g', _⟩ := slotWrites_geometry (create_geometry h).1 ws
  exact (slotWrite_geometry g' w).2

/-- Non-vacuity of C16/C15: a segment of two slots for 3 byte messages (35 byte slots; 70 bytes). -/
example : (shmCreate 2 3 0).map (fun m => (m.length, (shmAttach m).segs)) =
    some (70, [(16, 35), (51, 70)]) := by
  decide

/-! ## Placing messages -/

/-- The publisher places a sequence of messages, oldest first; the segment in use at the end, or the
first error. -/
def placeAll (c : Codec Obj) (slack n : Nat) (mem : Bytes) :
    List (Nat × Obj) → Except PlaceError Bytes
  | [] => .ok mem
  | m :: ms =>
    match placeMessage c slack n mem m.1 m.2 with
    | .error e => .error e
    | .ok mem => placeAll c slack n mem ms

/-- What a reader finds in slot `i`: id and object. -/
def readSlot (c : Codec Obj) (mem : Bytes) (i : Nat) : Except MarshalError (Nat × Obj) :=
  match shmView mem (shmAttach mem) i with
  | none => .error .valueError
  | some view => do return (← msgIdOf view, ← objFromMem c view)

/-- Latest message stored in slot `i`. -/
def latestIn (n : Nat) (ms : List (Nat × Obj)) (i : Nat) : Option (Nat × Obj) :=
  ms.reverse.find? (fun m => m.1 % n = i)

theorem readSlot_seg {c : Codec Obj} (hc : c.Faithful) {mem : Bytes} {n bs : Nat}
    {ct : Nat → Option (Nat × Obj)} (h : Seg c mem n bs ct) {i : Nat} (hi : i < n) :
    readSlot c mem i = match ct i with
      | none => .error .uninitialized
      | some m => .ok m := by
  unfold readSlot
  rw [view_eq h.geo hi]
  simp only
  cases hct : ct i with
  | none =>
    rw [msgIdOf_uninit (h.empty i hi hct)]
    rfl
  | some m =>
    obtain ⟨id, obj⟩ := m
    obtain ⟨he, R, hR⟩ := h.full i hi id obj hct
    rw [hR]
    have h1 : msgIdOf (headerOf id (c.dump obj) ++ (c.dump obj).flatten ++ R) = .ok id := by
      rw [List.append_assoc]; exact msgIdOf_header _ _ _ he.id
    have h2 : objFromMem c (headerOf id (c.dump obj) ++ (c.dump obj).flatten ++ R) = .ok obj := by
      unfold objFromMem
      rw [bufsFromMem_frame _ _ _ he (hc.nonempty obj)]
      simp [Except.map, hc.load_dump]
    rw [h1, h2]
    rfl

theorem placeAll_seg {c : Codec Obj} (hc : c.Faithful) (slack : Nat) {n : Nat}
    (ms : List (Nat × Obj)) {mem mem' : Bytes} {bs : Nat} {ct : Nat → Option (Nat × Obj)}
    (h : Seg c mem n bs ct) (hp : placeAll c slack n mem ms = .ok mem') :
    ∃ bs', Seg c mem' n bs' (fun i => (latestIn n ms i).or (ct i)) := by
  induction ms generalizing mem bs ct with
  | nil =>
    simp only [placeAll, Except.ok.injEq] at hp
    subst hp
    exact ⟨bs, by simpa [latestIn] using h⟩
  | cons m ms ih =>
    obtain ⟨id, obj⟩ := m
    simp only [placeAll] at hp
    obtain ⟨p1, p2⟩ := place_spec hc.load_dump hc.nonempty slack h id obj
    have hstep : ∀ mem1, placeMessage c slack n mem id obj = .ok mem1 →
        ∃ bs1, Seg c mem1 n bs1 (fun j => if j = id % n then some (id, obj) else ct j) := by
      intro mem1 h1
      by_cases he : Encodable id (c.dump obj)
      · obtain ⟨q1, q2, q3⟩ := p2 he
        by_cases a1 : totalSize (c.dump obj) ≤ bs - 16
        · obtain ⟨m', e1, e2⟩ := q1 a1
          rw [e1] at h1; injection h1 with h1; subst h1
          exact ⟨_, e2⟩
        · by_cases a2 : totalSize (c.dump obj) ≤ bs
          · rw [q2 (by omega) a2] at h1; cases h1
          · obtain ⟨r1, r2⟩ := q3 (by omega)
            by_cases a3 : totalSize (c.dump obj) * 2 + 16 * n < 2 ^ 64
            · obtain ⟨m', e1, e2⟩ := r2 a3
              rw [e1] at h1; injection h1 with h1; subst h1
              exact ⟨_, e2⟩
            · rw [r1 (by omega)] at h1; cases h1
      · rw [p1 he] at h1; cases h1
    split at hp
    · cases hp
    · rename_i mem1 h1
      obtain ⟨bs1, hseg⟩ := hstep mem1 h1
      obtain ⟨bs', hfin⟩ := ih hseg hp
      refine ⟨bs', ?_⟩
      have : (fun i => (latestIn n ((id, obj) :: ms) i).or (ct i)) =
          (fun i => (latestIn n ms i).or (if i = id % n then some (id, obj) else ct i)) := by
        funext i
        simp only [latestIn, List.reverse_cons, List.find?_append]
        by_cases hi : i = id % n
        · subst hi
          simp
        · rw [if_neg hi]
          have : List.find? (fun m => decide (m.1 % n = i)) [(id, obj)] = none := by
            simp; exact fun hh => hi hh.symm
          rw [this]
          simp
      rw [this]
      exact hfin

/-- Specification: `m` is the most recent of the messages `ms` that belongs in slot `i`. -/
def IsLatest (n : Nat) (ms : List (Nat × Obj)) (i : Nat) (m : Nat × Obj) : Prop :=
  ∃ pre post, ms = pre ++ m :: post ∧ m.1 % n = i ∧ ∀ x ∈ post, x.1 % n ≠ i

theorem latestIn_some {n i : Nat} {ms : List (Nat × Obj)} {m : Nat × Obj}
    (h : IsLatest n ms i m) : latestIn n ms i = some m := by
  obtain ⟨pre, post, rfl, h1, h2⟩ := h
  unfold latestIn
  rw [List.reverse_append, List.find?_append, List.reverse_cons, List.find?_append]
  have : List.find? (fun m => decide (m.1 % n = i)) post.reverse = none := by
    rw [List.find?_eq_none]
    intro x hx
    simpa using h2 x (by simpa using hx)
  rw [this]
  simp [h1]

theorem latestIn_none {n i : Nat} {ms : List (Nat × Obj)} (h : ∀ m ∈ ms, m.1 % n ≠ i) :
    latestIn n ms i = none := by
  unfold latestIn
  rw [List.find?_eq_none]
  intro x hx
  simpa using h x (by simpa using hx)

/-- **C18 (growing).** Whatever messages a publisher has placed so far, when the segment is replaced by
a larger one (for a message of any size exceeding the current slots) the copy succeeds and every
slot reads exactly as before: the same id and object, or "no message". -/
theorem C18_growth_preserves_slots (c : Codec Obj) (hc : c.Faithful) (n req slack slack' : Nat)
    (mem0 mem : Bytes) (h0 : shmCreate n req slack = some mem0) (ms : List (Nat × Obj))
    (hp : placeAll c slack n mem0 ms = .ok mem) (total : Nat)
    (hgrow : (shmAttach mem).bufSize < total) (new : Bytes)
    (hnew : shmCreate n (total * 2) slack' = some new) :
    ∃ mem', copySlots c mem new (List.range n) = .ok mem' ∧
      ∀ i, i < n → readSlot c mem' i = readSlot c mem i := by
  obtain ⟨bs', hseg⟩ := placeAll_seg hc slack ms (create_seg c h0) hp
  rw [attach_eq hseg.geo] at hgrow
  simp only at hgrow
  obtain ⟨mem', e1, e2⟩ := copySlots_spec hc.load_dump hc.nonempty hseg
    (bs' := total * 2 + 16 * n) (by omega) (List.range n) (by simp) List.nodup_range
    (create_seg c hnew) (fun _ _ => rfl)
  refine ⟨mem', e1, ?_⟩
  intro i hi
  rw [readSlot_seg hc hseg hi, readSlot_seg hc e2 hi]
  simp [hi]

/-- **C18 (every history).** After any sequence of successfully placed messages, through any number of
growths, each slot holds exactly the most recent message that belongs in it, and reads as "no message"
if none does. -/
theorem C18_slots_hold_latest (c : Codec Obj) (hc : c.Faithful) (n req slack : Nat)
    (mem0 mem : Bytes) (h0 : shmCreate n req slack = some mem0) (ms : List (Nat × Obj))
    (hp : placeAll c slack n mem0 ms = .ok mem) (i : Nat) (hi : i < n) :
    (∀ m, IsLatest n ms i m → readSlot c mem i = .ok m) ∧
    ((∀ m ∈ ms, m.1 % n ≠ i) → readSlot c mem i = .error .uninitialized) := by
  obtain ⟨bs', hseg⟩ := placeAll_seg hc slack ms (create_seg c h0) hp
  rw [readSlot_seg hc hseg hi]
  constructor
  · intro m hm
    rw [latestIn_some hm]
    rfl
  · intro h
    rw [latestIn_none h]
    rfl

/-- **C17, full statement**: in every reachable state of the segment, every message whose sizes fit the
wire format and for which the operating system can provide a large enough segment is placed
successfully. This is false of the code, see `C17_window_rejected`. -/
def C17Full (c : Codec Obj) (n req slack : Nat) : Prop :=
  ∀ mem0 mem ms, shmCreate n req slack = some mem0 → placeAll c slack n mem0 ms = .ok mem →
    ∀ id obj total header, serialize id (c.dump obj) = .ok (total, header) →
      total * 2 + 16 * n < 2 ^ 64 → ∃ mem', placeMessage c slack n mem id obj = .ok mem'

/-- **C17 (disagreement).** The size check compares with the slot size including its 16 byte header,
so every message with `block size < total ≤ block size + 16` fails with a `ValueError`, in every
reachable state. -/
theorem C17_window_rejected (c : Codec Obj) (hc : c.Faithful) (n req slack : Nat)
    (mem0 mem : Bytes) (h0 : shmCreate n req slack = some mem0) (ms : List (Nat × Obj))
    (hp : placeAll c slack n mem0 ms = .ok mem) (id : Nat) (obj : Obj) (total : Nat)
    (header : Bytes) (hs : serialize id (c.dump obj) = .ok (total, header))
    (h1 : (shmAttach mem).size < total) (h2 : (total : Int) ≤ (shmAttach mem).size + 16) :
    placeMessage c slack n mem id obj = .error .valueError := by
  obtain ⟨bs', hseg⟩ := placeAll_seg hc slack ms (create_seg c h0) hp
  obtain ⟨he, hr⟩ := serialize_inv hs
  rw [serialize_total he] at hs
  injection hs with hs
  injection hs with hs _
  rw [attach_eq hseg.geo] at h1 h2
  simp only [ShmContext.size] at h1 h2
  have := hseg.geo.big
  exact ((place_spec hc.load_dump hc.nonempty slack hseg id obj).2 he).2.1 (by omega) (by omega)

/-- **C17 (negation, concrete).** A publisher with one buffer of requested size 10 cannot publish an
empty byte string (26 bytes marshalled; the slot has 10, the check allows up to 26). -/
theorem C17_negation : ¬ C17Full bytesCodec 1 10 0 := by
  intro h
  have h0 := create_some (n := 1) (req := 10) 0 (by omega) (by omega) (by omega)
  obtain ⟨mem', hm⟩ := h _ _ [] h0 rfl 0 [] 26 _ rfl (by omega)
  have := C17_window_rejected bytesCodec bytesCodec_faithful 1 10 0 _ _ h0 [] rfl 0 [] 26 _ rfl
    (by decide) (by decide)
  rw [this] at hm
  cases hm

/-- **C17 (partial).** Missing: messages in the 16 byte window above. Every other message is placed
successfully in every reachable state of the segment. -/
theorem C17_message_placed_partial (c : Codec Obj) (hc : c.Faithful) (n req slack : Nat)
    (mem0 mem : Bytes) (h0 : shmCreate n req slack = some mem0) (ms : List (Nat × Obj))
    (hp : placeAll c slack n mem0 ms = .ok mem) (id : Nat) (obj : Obj) (total : Nat)
    (header : Bytes) (hs : serialize id (c.dump obj) = .ok (total, header))
    (hos : total * 2 + 16 * n < 2 ^ 64)
    (hwin : ¬ ((shmAttach mem).size < total ∧ (total : Int) ≤ (shmAttach mem).size + 16)) :
    ∃ mem', placeMessage c slack n mem id obj = .ok mem' := by
  obtain ⟨bs', hseg⟩ := placeAll_seg hc slack ms (create_seg c h0) hp
  obtain ⟨he, hr⟩ := serialize_inv hs
  rw [serialize_total he] at hs
  injection hs with hs
  injection hs with hs _
  rw [attach_eq hseg.geo] at hwin
  simp only [ShmContext.size] at hwin
  have := hseg.geo.big
  obtain ⟨q1, _, q3⟩ := (place_spec hc.load_dump hc.nonempty slack hseg id obj).2 he
  by_cases ha : totalSize (c.dump obj) ≤ bs' - 16
  · obtain ⟨m, e, _⟩ := q1 ha
    exact ⟨m, e⟩
  · obtain ⟨m, e, _⟩ := (q3 (by omega)).2 (by omega)
    exact ⟨m, e⟩

/-- Non-vacuity of C17/C18: two slots of 26 usable bytes; the empty object is placed in slot 0, then a
20 byte object forces a growth (46 > 42) into slot 1; both read back. -/
example : ((shmCreate 2 10 0).map (fun m0 =>
    match placeAll bytesCodec 0 2 m0 [(0, []), (1, List.replicate 20 5)] with
    | .ok m => decide (m.length = 248 ∧ (readSlot bytesCodec m 0).toOption = some (0, []) ∧
        (readSlot bytesCodec m 1).toOption = some (1, List.replicate 20 5))
    | .error _ => false)) = some true := by
  decide +kernel

end Ez
