import Verif.Lemmas.Wire

/-!
# C100: both sides of a connection understand each other
-/

set_option linter.unusedSimpArgs false

namespace Ez.Wire
variable {A B : Type}

/-! ## Specification -/

/-- Specification: whatever the order in which the two sides work and bytes arrive, the connection ends in the state `f`: every run can
go on to it, after a number of operations that does not depend on the order, and there is nothing left to do in it. -/
def Always (l : Loops A B) (c f : Conn A B) : Prop :=
  (∀ w, step l f w = none) ∧ ∃ n, ∀ t d, run l c t = some d → ∃ u, run l d u = some f ∧ t.length + u.length = n

/-- Specification: texts and payloads have less than 2^64 bytes. -/
def Short (s : String) : Prop := (utf8 s).length < 2 ^ 64
def Small (b : Bytes) : Prop := b.length < 2 ^ 64

/-- Specification: an address that can be sent. -/
def Plain (a : Address) : Prop := ':' ∉ a.host ∧ Short (String.ofList a.toStr)

/-- Specification: a call whose arguments can be sent. -/
def Sendable : Call → Prop
  | .connect s t | .disconnect s t => Short s ∧ Short t
  | .createShm n m => 0 ≤ n ∧ n < 2 ^ 64 ∧ 0 ≤ m ∧ m < 2 ^ 64
  | .attachShm s | .channel s => Short s
  | .publish t a => Short t ∧ Plain a
  | .settingsEvents n | .topologyEvents n => Short (String.ofList (pyStrInt n))
  | .profiling b => Small b
  | _ => True

/-- Specification: a server whose answers can be sent. -/
structure Answers (e : Env) : Prop where
  version : Short e.version
  graph : Small e.graph
  shm : ∀ n m, Short (e.newShm n m)
  address : ∀ p a, e.publisher p = some a → Plain a
  id : Short e.id

/-- Specification: what the caller gets. -/
def due (e : Env) : Call → Except Exn Reply
  | .connect s t => if e.cyclic s t then .error .cyclic else .ok .nothing
  | .dag => .ok (.graph e.graph)
  | .createShm n m => .ok (.shm (e.newShm n.toNat m.toNat))
  | .attachShm s => if s ∈ e.shms then .ok (.shm s) else .error .value
  | .channel p => match e.publisher p with
    | some a => .ok (.channel e.id a)
    | none => .error .value
  | .publish _ _ | .session | .process | .settingsEvents _ | .topologyEvents _ | .profiling _ => .ok (.id e.id)
  | _ => .ok .nothing

/-- Specification: the server carries out the call, unless what it names does not exist. -/
def Known (e : Env) : Call → Bool
  | .attachShm s => decide (s ∈ e.shms)
  | .channel p => (e.publisher p).isSome
  | _ => true

/-- Specification: the connection stays open after these calls, if they are carried out. -/
def Stays : Call → Bool
  | .createShm _ _ | .attachShm _ | .publish _ _ | .channel _ | .session | .process | .settingsEvents _ | .topologyEvents _
  | .profiling _ => true
  | _ => false

/-- Specification: a channel that is refused does not close its connection. -/
def Forgotten (e : Env) : Call → Bool
  | .channel p => (e.publisher p).isNone
  | _ => false

/-! ## Proofs -/

theorem always_of_gets {l : Loops A B} {c f : Conn A B} (hf : ∀ w, step l f w = none) (g : Gets l c f) : Always l c f := by
  obtain ⟨s, hs⟩ := g
  exact ⟨hf, s.length, fun t d ht => run_uniform s.length c s rfl hs hf t d ht⟩

theorem ended {r : Except Exn A} {q : Except Exn B} {u d : Bytes} {x y : Bool} (w : Side) :
    step once ⟨.done r, .done q, u, d, x, y⟩ w = none := by
  cases w <;> simp only [step, move] <;> (first | cases r | skip) <;> (first | cases q | skip) <;> rfl

theorem toList_ofList (l : List Char) : (String.ofList l).toList = l := by simp

theorem plain_read {a : Address} (h : Plain a) : Address.fromString (String.ofList a.toStr).toList = some a := by
  rw [toList_ofList]
  unfold Address.fromString Address.toStr
  rw [pySplit_append _ _ _ h.1, pySplit_no_sep _ _ (colon_not_mem_pyStrInt a.port)]
  simp [pyInt_pyStrInt]

attribute [local irreducible] writePayload writeStr writeInt readStr readInt readPayload cmd

set_option maxHeartbeats 2000000 in
/-- **C100 (calls).** Whatever is called with arguments that can be sent, and in whatever order the two sides work and bytes arrive, the
caller gets what is due, the server carries out exactly this call, nothing is left unread, and the connection stays open exactly
for calls that go on using it (but see `Forgotten`). -/
theorem C100_calls (e : Env) (c : Call) (he : Answers e) (hc : Sendable c) :
    Always once (fresh (call c) (api e))
      ⟨.done (due e c), ret (if Known e c then some c else none), [], [], !(Stays c && Known e c || Forgotten e c), !(Stays c && Known e c)⟩ := by
  refine always_of_gets (fun w => ended w) ?_
  have hv : (utf8 e.version).length < 2 ^ 64 := he.version
  have hg : e.graph.length < 2 ^ 64 := he.graph
  have hi : (utf8 e.id).length < 2 ^ 64 := he.id
  cases c <;> simp only [fresh, call, api, due, Known, Stays, Forgotten, openConnection]
  case connect s t =>
    obtain ⟨h1, h2⟩ : (utf8 s).length < 2 ^ 64 ∧ (utf8 t).length < 2 ^ 64 := hc
    wire
    rcases Bool.eq_false_or_eq_true (e.cyclic s t) with h | h
    · simp only [h, if_true, value_inj, reduceCtorEq, if_false]; wire; exact .refl
    · simp only [h, if_true, value_inj, reduceCtorEq, if_false, Bool.false_eq_true]; wire; exact .refl
  case disconnect s t =>
    obtain ⟨h1, h2⟩ : (utf8 s).length < 2 ^ 64 ∧ (utf8 t).length < 2 ^ 64 := hc
    wire
    exact .refl
  case sync => wire; exact .refl
  case pause => wire; exact .refl
  case resume => wire; exact .refl
  case shutdown => wire; exact .refl
  case dag => wire; exact .refl
  case createShm n m =>
    obtain ⟨h1, h2, h3, h4⟩ := hc
    obtain ⟨n, rfl⟩ := Int.eq_ofNat_of_zero_le h1
    obtain ⟨m, rfl⟩ := Int.eq_ofNat_of_zero_le h3
    have k1 : n < 2 ^ 64 := by omega
    have k2 : m < 2 ^ 64 := by omega
    have k3 : (utf8 (e.newShm n m)).length < 2 ^ 64 := he.shm n m
    wire
    exact .refl
  case attachShm s =>
    have h1 : (utf8 s).length < 2 ^ 64 := hc
    wire
    by_cases h : s ∈ e.shms
    · simp only [h, if_true]; wire; simp; exact .refl
    · simp only [h, if_false]; wire; simp; exact .refl
  case publish t a =>
    have h1 : (utf8 t).length < 2 ^ 64 := hc.1
    have h2 : (utf8 (String.ofList a.toStr)).length < 2 ^ 64 := hc.2.2
    wire
    rw [plain_read hc.2]
    wire
    exact .refl
  case channel p =>
    have h1 : (utf8 p).length < 2 ^ 64 := hc
    wire
    obtain h | ⟨a, h⟩ : e.publisher p = none ∨ ∃ a, e.publisher p = some a := by
      cases e.publisher p <;> simp
    · simp only [h]; wire; simp; exact .refl
    · have h2 : (utf8 (String.ofList a.toStr)).length < 2 ^ 64 := (he.address p a h).2
      simp only [h]
      wire
      rw [plain_read (he.address p a h)]
      simp; exact .refl
  case session => wire; exact .refl
  case process => wire; exact .refl
  case settingsEvents n =>
    have h1 : (utf8 (String.ofList (pyStrInt n))).length < 2 ^ 64 := hc
    wire
    rw [toList_ofList, pyInt_pyStrInt]
    wire
    exact .refl
  case topologyEvents n =>
    have h1 : (utf8 (String.ofList (pyStrInt n))).length < 2 ^ 64 := hc
    wire
    rw [toList_ofList, pyInt_pyStrInt]
    wire
    exact .refl
  case profiling b =>
    have h1 : b.length < 2 ^ 64 := hc
    wire
    exact .refl

/-! ### Sessions -/

/-- Specification: a command of a session whose arguments can be sent. -/
def Askable : Ask → Prop
  | .connect s t | .disconnect s t => Short s ∧ Short t
  | .register m => Small m
  | .settingsEvents n => Short (String.ofList (pyStrInt n))
  | .request u op t p => Short u ∧ Short op ∧ Short t ∧ Small (p.getD [])
  | _ => True

/-- Specification: a request with an empty payload. -/
def Hollow : Ask → Prop
  | .request _ _ _ p => p = some []
  | _ => False

/-- Specification: commands that are answered with an object. -/
def Fetches : Ask → Bool
  | .snapshot | .settingsSnapshot | .settingsEvents _ | .request .. => true
  | _ => false

/-- Specification: the answers to the commands `as` after the commands `h`. -/
def replies (e : SessionEnv) : List Ask → List Ask → List Answer
  | _, [] => []
  | h, a :: as => (if Fetches a then .pickled (e.data h a) else .byte (some (e.byte h a).value)) :: replies e (h ++ [a]) as

theorem replies_append (e : SessionEnv) (h as bs : List Ask) :
    replies e h (as ++ bs) = replies e h as ++ replies e (h ++ as) bs := by
  induction as generalizing h with
  | nil => simp [replies]
  | cons a as ih => simp [replies, ih]

set_option maxHeartbeats 2000000 in
theorem session_one (e : SessionEnv) (h : List Ask) (a : Ask) (as : List Ask) (got : List Answer) (ha : Askable a) (hn : ¬ Hollow a)
    (hd : Small (e.data h a)) {f : Conn (List Answer) (List Ask × Bool)}
    (g : Gets (sessionLoops e) ⟨sessionClient as (got ++ replies e h [a]), sessionTurn e (h ++ [a]), [], [], false, false⟩ f) :
    Gets (sessionLoops e) ⟨sessionClient (a :: as) got, sessionTurn e h, [], [], false, false⟩ f := by
  have hd' : (e.data h a).length < 2 ^ 64 := hd
  have nx : (sessionLoops e).server (h ++ [a], true) = some (sessionTurn e (h ++ [a])) := rfl
  rw [sessionClient]
  simp only [replies] at g
  cases a <;> simp only [Ask.parts, writeStrs, sessionTurn, Fetches, Bool.false_eq_true, if_true, if_false, id] at g ⊢
  case connect s t =>
    obtain ⟨h1, h2⟩ : (utf8 s).length < 2 ^ 64 ∧ (utf8 t).length < 2 ^ 64 := ha
    wire
    exact s_next nx g
  case disconnect s t =>
    obtain ⟨h1, h2⟩ : (utf8 s).length < 2 ^ 64 ∧ (utf8 t).length < 2 ^ 64 := ha
    wire
    exact s_next nx g
  case clear => wire; exact s_next nx g
  case register m =>
    have h1 : m.length < 2 ^ 64 := ha
    wire
    exact s_next nx g
  case snapshot => wire; exact s_next nx g
  case settingsSnapshot => wire; exact s_next nx g
  case settingsEvents n =>
    have h1 : (utf8 (String.ofList (pyStrInt n))).length < 2 ^ 64 := ha
    wire
    simp only [toList_ofList, pyInt_pyStrInt]
    wire
    exact s_next nx g
  case request u op t p =>
    obtain ⟨h1, h2, h3, h4⟩ : (utf8 u).length < 2 ^ 64 ∧ (utf8 op).length < 2 ^ 64 ∧ (utf8 t).length < 2 ^ 64 ∧
      (p.getD []).length < 2 ^ 64 := ha
    wire
    rw [P_eq]
    refine s_readInt h4 ?_
    obtain rfl | ⟨b, rfl⟩ : p = none ∨ ∃ b, p = some b := by cases p <;> simp
    · simp only [Option.getD_none, List.length_nil, Nat.lt_irrefl, if_false]
      wire
      exact s_next nx g
    · have hb : 0 < b.length := by
        cases b with
        | nil => exact absurd rfl hn
        | cons => simp
      simp only [Option.getD_some, hb, if_true]
      refine s_exact_end rfl ?_
      wire
      exact s_next nx g

theorem session_ends (e : SessionEnv) (r : Except Exn (List Answer)) (h : List Ask) {u d : Bytes} {x y : Bool} (w : Side) :
    step (sessionLoops e) ⟨.done r, ret (h, false), u, d, x, y⟩ w = none := by
  cases w <;> simp only [step, move, ret, sessionLoops] <;> (first | cases r | skip) <;> rfl

theorem session_all (e : SessionEnv) (he : ∀ h a, Small (e.data h a)) (as : List Ask) (ha : ∀ a ∈ as, Askable a ∧ ¬ Hollow a) :
    ∀ (h : List Ask) (got : List Answer),
    Gets (sessionLoops e) ⟨sessionClient as got, sessionTurn e h, [], [], false, false⟩
      ⟨ret (got ++ replies e h as), ret (h ++ as, false), [], [], true, true⟩ := by
  induction as with
  | nil =>
    intro h got
    rw [sessionClient, sessionTurn]
    wire
    simp only [replies, List.append_nil]
    exact .refl
  | cons a as ih =>
    intro h got
    obtain ⟨h1, h2⟩ := ha a (by simp)
    refine session_one e h a as got h1 h2 (he h a) ?_
    have := ih (fun b hb => ha b (by simp [hb])) (h ++ [a]) (got ++ replies e h [a])
    rw [List.append_assoc, List.append_assoc, ← replies_append] at this
    exact this

/-- **C100 (sessions).** Whatever commands a context sends over its session and in whatever order the two sides work, the server
handles exactly these commands in this order, every command gets the answer the server gave to it, nothing is left unread, and both
sides close. -/
theorem C100_session (e : SessionEnv) (he : ∀ h a, Small (e.data h a)) (as : List Ask) (ha : ∀ a ∈ as, Askable a ∧ ¬ Hollow a) :
    Always (sessionLoops e) (fresh (sessionClient as []) (sessionTurn e []))
      ⟨ret (replies e [] as), ret (as, false), [], [], true, true⟩ := by
  refine always_of_gets (fun w => session_ends e _ _ w) ?_
  exact session_all e he as ha [] []

/-! ### Frames -/

/-- Specification: who reads frames: a process (from the server), the server (from a process), a channel (from its publisher), a
publisher (from a channel), and a subscription of a context (from the server). -/
inductive Reader where
  | process
  | server
  | channel
  | publisher
  | subscription
deriving DecidableEq

/-- The loop of each reader in the model. -/
def Reader.turn (answer : List Frame → Frame → Bool) : Reader → List Frame → Turn
  | .process => processTurn
  | .server => serverProcessTurn answer
  | .channel => channelTurn
  | .publisher => publisherTurn
  | .subscription => streamTurn

/-- Specification: what is sent to each reader, with bodies of less than 2^64 bytes and numbers less than 2^64. -/
def Carries : Reader → Frame → Prop
  | .process, .ack _ => True
  | .process, .routeRequest p => Small p
  | .server, .register p | .server, .ownership p | .server, .settings p | .server, .trace p | .server, .routeResponse p => Small p
  | .channel, .txShm m name => m < 2 ^ 64 ∧ Short name
  | .channel, .txTcp m p => m < 2 ^ 64 ∧ Small p
  | .publisher, .rxAck m => m < 2 ^ 64
  | .subscription, .event p => Small p
  | _, _ => False

/-- Specification: the server answers three kinds of frames of a process, each with one byte; nobody else answers. -/
def acks (answer : List Frame → Frame → Bool) : Reader → List Frame → List Frame → Bytes
  | _, _, [] => []
  | r, got, f :: fs =>
    (match r, f with
      | .server, .register _ | .server, .ownership _ | .server, .settings _ =>
        [(if answer got f then Command.COMPLETE else Command.ERROR).value]
      | _, _ => []) ++ acks answer r (got ++ [f]) fs

theorem acks_append (answer : List Frame → Frame → Bool) (r : Reader) (got fs gs : List Frame) :
    acks answer r got (fs ++ gs) = acks answer r got fs ++ acks answer r (got ++ fs) gs := by
  induction fs generalizing got with
  | nil => simp [acks]
  | cons a as ih => simp [acks, ih]

set_option maxHeartbeats 2000000 in
theorem frame_one (answer : List Frame → Frame → Bool) (r : Reader) (fr : Frame) (hc : Carries r fr) (got : List Frame) (k : Prog Unit)
    (dn : Bytes) {f : Conn Unit (List Frame × Bool)}
    (g : Gets (frameLoops (r.turn answer)) ⟨k, r.turn answer (got ++ [fr]), [], dn ++ acks answer r got [fr], false, false⟩ f) :
    Gets (frameLoops (r.turn answer)) ⟨fr.send k, r.turn answer got, [], dn, false, false⟩ f := by
  have nx : (frameLoops (r.turn answer)).server (got ++ [fr], true) = some (r.turn answer (got ++ [fr])) := rfl
  cases r <;> cases fr <;> simp only [Carries] at hc <;>
    simp only [Frame.send, Reader.turn, acks, processTurn, serverProcessTurn, channelTurn, publisherTurn, streamTurn, List.append_nil]
      at g nx ⊢
  case process.ack ok =>
    cases ok
    · simp only [Bool.false_eq_true, if_false]; wire; exact s_next nx g
    · simp only [if_true]; wire; exact s_next nx g
  case subscription.event p =>
    have h1 : p.length < 2 ^ 64 := hc
    refine c_pay h1 ?_
    rw [P_eq, List.nil_append]
    refine s_exact (by unfold N; exact length_toBytesLE _ _) ?_
    rw [show bytesToUint (N p.length) = p.length by unfold N; exact decode_uint64 _ h1]
    refine s_exact_end rfl ?_
    exact s_next nx g
  case channel.txShm m name =>
    obtain ⟨h1, h2⟩ : m < 2 ^ 64 ∧ (utf8 name).length < 2 ^ 64 := hc
    wire
    exact s_next nx g
  case channel.txTcp m p =>
    obtain ⟨h1, h2⟩ : m < 2 ^ 64 ∧ p.length < 2 ^ 64 := hc
    wire
    exact s_next nx g
  case publisher.rxAck m => wire; exact s_next nx g
  all_goals
    rename_i p
    have h1 : p.length < 2 ^ 64 := hc
    wire
    exact s_next nx g

/-- Specification: a process leaves its connection open when the server has closed it, every other reader closes too. -/
def Reader.closes : Reader → Bool
  | .process => false
  | _ => true

theorem frames_all (answer : List Frame → Frame → Bool) (r : Reader) (fs : List Frame) (hc : ∀ f ∈ fs, Carries r f) :
    ∀ (got : List Frame) (dn : Bytes), Gets (frameLoops (r.turn answer)) ⟨sender fs, r.turn answer got, [], dn, false, false⟩
      ⟨ret (), ret (got ++ fs, false), [], dn ++ acks answer r got fs, true, r.closes⟩ := by
  induction fs with
  | nil =>
    intro got dn
    simp only [sender, acks, List.append_nil]
    cases r <;> simp only [Reader.turn, processTurn, serverProcessTurn, channelTurn, publisherTurn, streamTurn, Reader.closes]
    case subscription =>
      refine c_close (s_exact_eof (by decide) (s_close ?_))
      exact .refl
    all_goals
      wire
      exact .refl
  | cons fr fs ih =>
    intro got dn
    refine frame_one answer r fr (hc fr (by simp)) got _ dn ?_
    have := ih (fun b hb => hc b (by simp [hb])) (got ++ [fr]) (dn ++ acks answer r got [fr])
    rw [List.append_assoc, List.append_assoc, ← acks_append] at this
    exact this

theorem frames_end (t : List Frame → Turn) (h : List Frame) {u d : Bytes} {x y : Bool} (w : Side) :
    step (frameLoops t) ⟨ret (), ret (h, false), u, d, x, y⟩ w = none := by
  cases w <;> rfl

/-- **C100 (frames).** Whatever frames are written to a reader, it reads exactly these frames in this order, however the bytes are
delayed, and ends when the connection is closed; the server answers each command of a process with one byte, in order. -/
theorem C100_frames (answer : List Frame → Frame → Bool) (r : Reader) (fs : List Frame) (hc : ∀ f ∈ fs, Carries r f) :
    Always (frameLoops (r.turn answer)) (fresh (sender fs) (r.turn answer []))
      ⟨ret (), ret (fs, false), [], acks answer r [] fs, true, r.closes⟩ := by
  refine always_of_gets (fun w => frames_end _ _ w) ?_
  exact frames_all answer r fs hc [] []

/-! ### A stream that breaks off -/

/-- Specification: the objects that arrived completely with the first `n` bytes. -/
def whole : Nat → List Bytes → List Bytes
  | _, [] => []
  | n, p :: ps => if 8 + p.length ≤ n then p :: whole (n - (8 + p.length)) ps else []

/-- Specification: the bytes of the objects of a stream. -/
def streamBytes (ps : List Bytes) : Bytes := (ps.map fun p => toBytesLE 8 p.length ++ p).flatten

theorem cut_all (ps : List Bytes) (hp : ∀ p ∈ ps, Small p) :
    ∀ (n : Nat) (got : List Frame), Gets (frameLoops streamTurn)
      ⟨ret (), streamTurn got, (streamBytes ps).take n, [], true, false⟩
      ⟨ret (), ret (got ++ (whole n ps).map Frame.event, false), [], [], true, true⟩ := by
  induction ps with
  | nil =>
    intro n got
    simp only [streamBytes, List.map_nil, List.flatten_nil, List.take_nil, whole, List.append_nil, streamTurn]
    refine s_exact_eof (by decide) (s_close ?_)
    exact .refl
  | cons p ps ih =>
    intro n got
    have h1 : p.length < 2 ^ 64 := hp p (by simp)
    have nx : (frameLoops streamTurn).server (got ++ [.event p], true) = some (streamTurn (got ++ [.event p])) := rfl
    have hl := length_toBytesLE 8 p.length
    have e1 : streamBytes (p :: ps) = toBytesLE 8 p.length ++ (p ++ streamBytes ps) := by simp [streamBytes]
    rw [e1, whole]
    by_cases hn : 8 + p.length ≤ n
    · rw [if_pos hn, List.take_append, hl, List.take_of_length_le (by omega), List.take_append,
        List.take_of_length_le (by omega)]
      rw [streamTurn]
      refine s_exact hl ?_
      rw [decode_uint64 _ h1]
      refine s_exact rfl ?_
      refine s_next nx ?_
      have := ih (fun b hb => hp b (by simp [hb])) (n - (8 + p.length)) (got ++ [.event p])
      rw [Nat.sub_sub]
      simpa using this
    · rw [if_neg hn, streamTurn]
      simp only [List.map_nil, List.append_nil]
      by_cases h8 : 8 ≤ n
      · rw [List.take_append, hl, List.take_of_length_le (by omega)]
        refine s_exact hl ?_
        rw [decode_uint64 _ h1]
        refine .head (w := .server) (d := ⟨ret (), .close (ret (got, false)), [], [], true, false⟩) ?_ (s_close .refl)
        have : ¬ p.length ≤ (List.take (n - 8) (p ++ streamBytes ps)).length := by simp; omega
        simp only [step, move]
        rw [if_neg this]
        rfl
      · refine .head (w := .server) (d := ⟨ret (), .close (ret (got, false)), [], [], true, false⟩) ?_ (s_close .refl)
        have : ¬ UINT64_SIZE ≤ (List.take n (toBytesLE 8 p.length ++ (p ++ streamBytes ps))).length := by simp [UINT64_SIZE]; omega
        simp only [step, move]
        rw [if_neg this]
        rfl

/-- **C100 (broken streams).** A subscription whose stream breaks off after any number of bytes has received exactly the objects that
arrived completely: no part of an object is ever taken for one. -/
theorem C100_cut (ps : List Bytes) (hp : ∀ p ∈ ps, Small p) (n : Nat) :
    Always (frameLoops streamTurn) (fresh (.write ((streamBytes ps).take n) (.close (ret ()))) (streamTurn []))
      ⟨ret (), ret ((whole n ps).map Frame.event, false), [], [], true, true⟩ := by
  refine always_of_gets (fun w => frames_end _ _ w) ?_
  refine c_write (c_close ?_)
  exact cut_all ps hp n []

/-! ### A channel and its publisher -/

/-- **C100 (channels).** A channel that connects to a publisher learns the topic, the segment and the number of buffers of this
publisher; the publisher learns the channel's id, its process and whether it has the segment; nothing is left unread. -/
theorem C100_introduce (i : PubInfo) (id : String) (attaches : Bool) (pid : Nat) (h1 : Short id) (h2 : Short i.topic) (h3 : Short i.shm)
    (h4 : i.buffers < 2 ^ 64) (h5 : pid < 2 ^ 64) :
    Always once (fresh (introduce id attaches pid) (welcome i)) ⟨ret i, ret (some (id, pid, attaches)), [], [], false, false⟩ := by
  refine always_of_gets (fun w => ended w) ?_
  have k1 : (utf8 id).length < 2 ^ 64 := h1
  have k2 : (utf8 i.topic).length < 2 ^ 64 := h2
  have k3 : (utf8 i.shm).length < 2 ^ 64 := h3
  simp only [fresh, introduce, welcome]
  wire
  cases attaches
  · simp only [Bool.false_eq_true, if_false, value_inj, reduceCtorEq, decide_false]; exact .refl
  · simp only [if_true, value_inj, decide_true]; exact .refl

/-! ### Updates -/

/-- Specification: ids of publishers: texts that are not empty and have no comma. -/
def Ids (l : List String) : Prop := (∀ i ∈ l, i ≠ "" ∧ ',' ∉ i.toList) ∧ Short (joinIds l)

theorem split_join : ∀ (l : List (List Char)), l ≠ [] → (∀ i ∈ l, ',' ∉ i) → pySplit ',' ([','].intercalate l) = l
  | [], h, _ => absurd rfl h
  | [a], _, h => by
    simp only [List.intercalate, List.intersperse, List.flatten_cons, List.flatten_nil, List.append_nil]
    exact pySplit_no_sep _ _ (h a (by simp))
  | a :: b :: l, _, h => by
    have := split_join (b :: l) (by simp) (fun i hi => h i (by simp [hi]))
    simp only [List.intercalate, List.intersperse, List.flatten_cons] at this ⊢
    rw [List.singleton_append, pySplit_append _ _ _ (h a (by simp)), this]

theorem join_ne {l : List String} (h : l ≠ []) (hi : ∀ i ∈ l, i ≠ "") : joinIds l ≠ "" := by
  intro he
  have := congrArg String.toList he
  rw [joinIds, toList_ofList] at this
  cases l with
  | nil => exact h rfl
  | cons a l =>
    have ha := hi a (by simp)
    have hne : a.toList ≠ [] := fun h => ha (String.toList_inj.1 (by simpa using h))
    cases l with
    | nil => simp [List.intercalate, List.intersperse] at this; exact ha this
    | cons b l => simp [List.intercalate, List.intersperse] at this

theorem read_ids {l : List String} (h : Ids l) :
    (if joinIds l = "" then [] else (pySplit ',' (joinIds l).toList).map String.ofList) = l := by
  by_cases he : l = []
  · subst he; rfl
  · rw [if_neg (join_ne he fun i hi => (h.1 i hi).1), joinIds, toList_ofList,
      split_join _ (by simpa using he) (by intro i hi; obtain ⟨j, hj, rfl⟩ := List.mem_map.1 hi; exact (h.1 j hj).2)]
    simp [List.map_map, Function.comp_def]

set_option maxHeartbeats 2000000 in
theorem update_one (s : Sub) (hm : s.more = true) (pubs : List String) (hp : Ids pubs) (k : Prog String) {f : Conn Sub String}
    (g : Gets subLoops ⟨subTurn { s with told := s.told ++ [pubs] }, k, [], [], false, false⟩ f) :
    Gets subLoops ⟨subTurn s, notify pubs k, [], [], false, false⟩ f := by
  have h1 : (utf8 (joinIds pubs)).length < 2 ^ 64 := hp.2
  have nx : subLoops.client { s with told := s.told ++ [pubs] } = some (subTurn { s with told := s.told ++ [pubs] }) := by
    simp [subLoops, hm]
  rw [notify, subTurn]
  wire
  rw [read_ids hp]
  exact c_next nx g

theorem updates_all (topic : String) (us : List (List String)) (hu : ∀ u ∈ us, Ids u) :
    ∀ (s : Sub), s.more = true → Gets subLoops ⟨subTurn s, subscribe.rest topic us, [], [], false, false⟩
      ⟨ret { s with told := s.told ++ us, more := false }, ret topic, [], [], true, true⟩ := by
  induction us with
  | nil =>
    intro s hm
    rw [subscribe.rest, subTurn]
    wire
    simp only [List.append_nil]
    exact .refl
  | cons u us ih =>
    intro s hm
    rw [subscribe.rest]
    refine update_one s hm u (hu u (by simp)) _ ?_
    have := ih (fun b hb => hu b (by simp [hb])) { s with told := s.told ++ [u] } hm
    simpa using this

set_option maxHeartbeats 2000000 in
/-- **C100 (updates).** A subscriber gets its id, is told exactly the lists of publishers the server sent, in this order, the first of
them before it is ready, and ends when the server closes; the server learns its topic. -/
theorem C100_updates (e : Env) (he : Answers e) (topic : String) (ht : Short topic) (first : List String) (us : List (List String))
    (hf : Ids first) (hu : ∀ u ∈ us, Ids u) :
    Always subLoops (fresh (subCreate topic) (subscribe e first us))
      ⟨ret ⟨e.id, first :: us, some 1, false⟩, ret topic, [], [], true, true⟩ := by
  refine always_of_gets (fun w => by cases w <;> rfl) ?_
  have hv : (utf8 e.version).length < 2 ^ 64 := he.version
  have hi : (utf8 e.id).length < 2 ^ 64 := he.id
  have h1 : (utf8 topic).length < 2 ^ 64 := ht
  simp only [fresh, subCreate, subscribe]
  refine s_str hv ?_
  rw [List.nil_append, openConnection]
  refine c_readStr_end hv ?_
  refine c_cmd (c_str h1 (s_read1 ?_))
  simp only [if_true, List.nil_append]
  refine s_readStr_end h1 (s_str hi ?_)
  rw [List.nil_append]
  refine c_readStr_end hi (c_next (k := subTurn ⟨e.id, [], none, true⟩) rfl ?_)
  refine update_one _ rfl first hf _ ?_
  refine s_cmd ?_
  rw [subTurn, List.nil_append]
  refine c_read1 ?_
  simp only [if_true]
  refine c_next (k := subTurn ⟨e.id, [first], some 1, true⟩) rfl ?_
  exact updates_all topic us hu _ rfl

/-! ### A server that hangs up -/

/-- Specification: what a caller gets from a server that closes the connection instead of answering. The first six return as if the
server had done what they asked for. -/
def unanswered : Call → Except Exn Reply
  | .connect _ _ | .disconnect _ _ | .sync | .pause | .resume | .shutdown => .ok .nothing
  | .createShm _ _ | .attachShm _ | .channel _ => .error .value
  | _ => .error .incomplete

/-- Specification: calls that do not close their connection when they are not answered. -/
def LeavesOpen : Call → Bool
  | .connect _ _ | .disconnect _ _ | .sync | .pause | .resume | .shutdown | .createShm _ _ | .attachShm _ => false
  | _ => true

theorem c_exact_eof {l : Loops A B} {f : Conn A B} {q : Prog B} {n : Nat} {u : Bytes} {x : Bool} {k : Bytes → Prog A} {e : Prog A}
    (h : 0 < n) (g : Gets l ⟨e, q, u, [], x, true⟩ f) : Gets l ⟨.exact n k e, q, u, [], x, true⟩ f := by
  refine .head (w := .client) ?_ g
  have : ¬ n ≤ 0 := by omega
  simp [step, move, this]

unseal readInt readStr readPayload in
theorem c_int_eof {l : Loops A B} {f : Conn A B} {q : Prog B} {u : Bytes} {x : Bool} {k : Nat → Prog A}
    (g : Gets l ⟨raise .incomplete, q, u, [], x, true⟩ f) : Gets l ⟨readInt k, q, u, [], x, true⟩ f :=
  c_exact_eof (by decide) g

unseal readInt readStr readPayload in
theorem c_str_eof {l : Loops A B} {f : Conn A B} {q : Prog B} {u : Bytes} {x : Bool} {k : String → Prog A}
    (g : Gets l ⟨raise .incomplete, q, u, [], x, true⟩ f) : Gets l ⟨readStr k, q, u, [], x, true⟩ f :=
  c_exact_eof (by decide) g

unseal readInt readStr readPayload in
theorem c_pay_eof {l : Loops A B} {f : Conn A B} {q : Prog B} {u : Bytes} {x : Bool} {k : Bytes → Prog A}
    (g : Gets l ⟨raise .incomplete, q, u, [], x, true⟩ f) : Gets l ⟨readPayload k, q, u, [], x, true⟩ f :=
  c_exact_eof (by decide) g

set_option maxHeartbeats 2000000 in
/-- **C100 (violated: a call that was not carried out).** If the server closes the connection instead of answering, every call that
needs an answer raises, except `connect`, `disconnect` and `sync`: these return as if they had been carried out. -/
theorem C100_lost (v : String) (hv : Short v) (c : Call) (hc : Sendable c) :
    ∃ sent, Always once (fresh (call c) (hangUp v)) ⟨.done (unanswered c), ret none, sent, [], !LeavesOpen c, true⟩ := by
  have hv : (utf8 v).length < 2 ^ 64 := hv
  suffices h : ∃ sent, Gets once (fresh (call c) (hangUp v)) ⟨.done (unanswered c), ret none, sent, [], !LeavesOpen c, true⟩ by
    obtain ⟨sent, h⟩ := h
    exact ⟨sent, always_of_gets (fun w => ended w) h⟩
  cases c <;> simp only [fresh, call, hangUp, unanswered, LeavesOpen, openConnection]
  case connect s t =>
    obtain ⟨h1, h2⟩ : (utf8 s).length < 2 ^ 64 ∧ (utf8 t).length < 2 ^ 64 := hc
    refine ⟨?_, ?_⟩; rotate_left
    · wire; exact .refl
  case disconnect s t =>
    obtain ⟨h1, h2⟩ : (utf8 s).length < 2 ^ 64 ∧ (utf8 t).length < 2 ^ 64 := hc
    refine ⟨?_, ?_⟩; rotate_left
    · wire; exact .refl
  case dag =>
    refine ⟨?_, ?_⟩; rotate_left
    · wire; refine c_pay_eof ?_; exact .refl
  case createShm n m =>
    obtain ⟨h1, h2, h3, h4⟩ := hc
    obtain ⟨n, rfl⟩ := Int.eq_ofNat_of_zero_le h1
    obtain ⟨m, rfl⟩ := Int.eq_ofNat_of_zero_le h3
    have k1 : n < 2 ^ 64 := by omega
    have k2 : m < 2 ^ 64 := by omega
    refine ⟨?_, ?_⟩; rotate_left
    · wire; exact .refl
  case attachShm s =>
    have h1 : (utf8 s).length < 2 ^ 64 := hc
    refine ⟨?_, ?_⟩; rotate_left
    · wire; exact .refl
  case publish t a =>
    have h1 : (utf8 t).length < 2 ^ 64 := hc.1
    refine ⟨?_, ?_⟩; rotate_left
    · wire; refine c_str_eof ?_; exact .refl
  case channel p =>
    have h1 : (utf8 p).length < 2 ^ 64 := hc
    refine ⟨?_, ?_⟩; rotate_left
    · wire; exact .refl
  case settingsEvents n =>
    have h1 : (utf8 (String.ofList (pyStrInt n))).length < 2 ^ 64 := hc
    refine ⟨?_, ?_⟩; rotate_left
    · wire; refine c_str_eof ?_; exact .refl
  case topologyEvents n =>
    have h1 : (utf8 (String.ofList (pyStrInt n))).length < 2 ^ 64 := hc
    refine ⟨?_, ?_⟩; rotate_left
    · wire; refine c_str_eof ?_; exact .refl
  case profiling b =>
    have h1 : b.length < 2 ^ 64 := hc
    refine ⟨?_, ?_⟩; rotate_left
    · wire; refine c_str_eof ?_; exact .refl
  case session =>
    refine ⟨?_, ?_⟩; rotate_left
    · wire; refine c_str_eof ?_; exact .refl
  case process =>
    refine ⟨?_, ?_⟩; rotate_left
    · wire; refine c_str_eof ?_; exact .refl
  all_goals
    refine ⟨?_, ?_⟩; rotate_left
    · wire; exact .refl

/-! ### Violations -/

set_option maxHeartbeats 2000000 in
/-- **C100 (violated: an empty payload).** A request with an empty payload reaches the process as one without a payload. -/
theorem C100_empty_payload (e : SessionEnv) (he : ∀ h a, Small (e.data h a)) (u op t : String) (hu : Short u) (ho : Short op)
    (ht : Short t) :
    Always (sessionLoops e) (fresh (sessionClient [.request u op t (some [])] []) (sessionTurn e []))
      ⟨ret [.pickled (e.data [] (.request u op t none))], ret ([.request u op t none], false), [], [], true, true⟩ := by
  have := C100_session e he [.request u op t none] (by
    intro a ha
    rw [List.mem_singleton] at ha; subst ha
    exact ⟨⟨hu, ho, ht, by simp [Small]⟩, by simp [Hollow]⟩)
  simp only [sessionClient, Ask.parts, Option.getD_none, Option.getD_some, replies, Fetches, if_true] at this ⊢
  exact this

set_option maxHeartbeats 2000000 in
unseal readInt writeInt in
/-- **C100 (violated: a negative number).** `create_shm` with a negative number raises after it has written its command, without
closing its connection: the server waits for the rest. -/
theorem C100_negative (e : Env) (he : Answers e) (n m : Int) (hn : n < 0) :
    ∃ f, Always once (fresh (call (.createShm n m)) (api e)) f ∧ f.client = raise .overflow ∧ f.clientClosed = false ∧
      (∀ r, f.server ≠ .done r) := by
  have hv : (utf8 e.version).length < 2 ^ 64 := he.version
  obtain ⟨k, rfl⟩ : ∃ k, n = .negSucc k := by
    cases n with
    | ofNat n => simp at hn; omega
    | negSucc k => exact ⟨k, rfl⟩
  refine ⟨?f, always_of_gets ?a ?b, ?c, ?d, ?e⟩
  case b =>
    simp only [fresh, call, api, openConnection]
    refine s_str hv ?_
    refine c_readStr_end hv (c_cmd (s_read1 ?_))
    simp only [value_inj, reduceCtorEq, if_false, if_true]
    exact .refl
  case a => intro w; cases w <;> rfl
  case c => rfl
  case d => rfl
  case e => intro r h; cases h

/-! ## Examples -/

instance (s : String) : Decidable (Short s) := inferInstanceAs (Decidable (_ < _))
instance (b : Bytes) : Decidable (Small b) := inferInstanceAs (Decidable (_ < _))

/-- A server that can answer, with one segment and one publisher; an edge from a topic to itself is a cycle. -/
def exampleEnv : Env :=
  { version := "3.7.0", cyclic := fun s t => s = t, graph := [1, 2, 3], newShm := fun _ _ => "psm_1", shms := ["psm_0"],
    publisher := fun p => if p = "p" then some ⟨"127.0.0.1".toList, 25980⟩ else none, id := "i" }

theorem exampleEnv_answers : Answers exampleEnv where
  version := by decide
  graph := by decide
  shm := fun _ _ => (by decide : Short "psm_1")
  address := by
    intro p a h
    simp only [exampleEnv] at h
    split at h
    · cases h; exact ⟨by decide, by decide⟩
    · cases h
  id := by decide

example : Always once (fresh (call (.connect "a" "a")) (api exampleEnv))
    ⟨.done (.error .cyclic), ret (some (.connect "a" "a")), [], [], true, true⟩ :=
  C100_calls exampleEnv (.connect "a" "a") exampleEnv_answers ⟨by decide, by decide⟩

example : Always once (fresh (call (.channel "p")) (api exampleEnv))
    ⟨.done (.ok (.channel "i" ⟨"127.0.0.1".toList, 25980⟩)), ret (some (.channel "p")), [], [], false, false⟩ :=
  C100_calls exampleEnv (.channel "p") exampleEnv_answers (by show Short _; decide)

example : Always once (fresh (call (.createShm 32 65536)) (api exampleEnv))
    ⟨.done (.ok (.shm "psm_1")), ret (some (.createShm 32 65536)), [], [], false, false⟩ :=
  C100_calls exampleEnv (.createShm 32 65536) exampleEnv_answers ⟨by decide, by decide, by decide, by decide⟩

def exampleSession : SessionEnv :=
  ⟨fun _ a => if a = .connect "a" "a" then .CYCLIC else .COMPLETE, fun h _ => [UInt8.ofNat h.length]⟩

example : Always (sessionLoops exampleSession)
    (fresh (sessionClient [.connect "a" "a", .request "U" "GET" "2.0" none, .clear] []) (sessionTurn exampleSession []))
    ⟨ret [.byte (some 5), .pickled [1], .byte (some 0)],
      ret ([.connect "a" "a", .request "U" "GET" "2.0" none, .clear], false), [], [], true, true⟩ :=
  C100_session exampleSession (fun _ _ => by simp [exampleSession, Small]) _ (by
    intro a ha
    simp only [List.mem_cons, List.not_mem_nil, or_false] at ha
    rcases ha with rfl | rfl | rfl
    · exact ⟨⟨by decide, by decide⟩, by simp [Hollow]⟩
    · exact ⟨⟨by decide, by decide, by decide, by decide⟩, by simp [Hollow]⟩
    · exact ⟨trivial, by simp [Hollow]⟩)

example : Always (frameLoops (serverProcessTurn fun _ f => f ≠ .settings [9]))
    (fresh (sender [.register [1], .trace [2, 3], .settings [9]]) (serverProcessTurn (fun _ f => f ≠ .settings [9]) []))
    ⟨ret (), ret ([.register [1], .trace [2, 3], .settings [9]], false), [], [Command.COMPLETE.value, Command.ERROR.value], true, true⟩ :=
  C100_frames (fun _ f => f ≠ .settings [9]) .server _ (by
    intro f hf
    simp only [List.mem_cons, List.not_mem_nil, or_false] at hf
    rcases hf with rfl | rfl | rfl <;> simp [Carries, Small])

example : Carries .channel (.txShm 7 "psm_0") ∧ Carries .channel (.txTcp 8 [1, 2]) ∧ ¬ Carries .channel (.rxAck 7) :=
  ⟨⟨by decide, by decide⟩, ⟨by decide, by decide⟩, fun h => h⟩

/-- 20 bytes of two objects of 4 and 5 bytes: the second one is not complete. -/
example : whole 20 [[1, 2, 3, 4], [5, 6, 7, 8, 9]] = [[1, 2, 3, 4]] ∧ whole 25 [[1, 2, 3, 4], [5, 6, 7, 8, 9]] = [[1, 2, 3, 4], [5, 6, 7, 8, 9]] := by
  decide

example : Always once (fresh (introduce "c" false 4242) (welcome ⟨"t", "psm_0", 32⟩))
    ⟨ret ⟨"t", "psm_0", 32⟩, ret (some ("c", 4242, false)), [], [], false, false⟩ :=
  C100_introduce ⟨"t", "psm_0", 32⟩ "c" false 4242 (by decide) (by decide) (by decide) (by decide) (by decide)

example : Always subLoops (fresh (subCreate "t") (subscribe exampleEnv ["p", "q"] [["q"], []]))
    ⟨ret ⟨"i", [["p", "q"], ["q"], []], some 1, false⟩, ret "t", [], [], true, true⟩ :=
  C100_updates exampleEnv exampleEnv_answers "t" (by decide) ["p", "q"] [["q"], []] ⟨by decide, by decide⟩ (by
    intro u hu
    simp only [List.mem_cons, List.not_mem_nil, or_false] at hu
    rcases hu with rfl | rfl <;> exact ⟨by decide, by decide⟩)

example : ∃ sent, Always once (fresh (call (.connect "a" "b")) (hangUp "3.7.0"))
    ⟨.done (.ok .nothing), ret none, sent, [], true, true⟩ := C100_lost "3.7.0" (by decide) (.connect "a" "b") ⟨by decide, by decide⟩

example : ∃ f, Always once (fresh (call (.createShm (-1) 0)) (api exampleEnv)) f ∧ f.client = raise .overflow ∧ f.clientClosed = false ∧
    (∀ r, f.server ≠ .done r) := C100_negative exampleEnv exampleEnv_answers (-1) 0 (by decide)

end Ez.Wire
