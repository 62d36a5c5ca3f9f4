import Verif.Model.System

/-!
# What an event log says

The log is newest first. These functions are the vocabulary of the delivery properties: what a
publisher broadcast, what a subscriber received since it was linked, and with which message its
reception should start.
-/

namespace Ez.Sys
variable {P K S V : Type} [DecidableEq P] [DecidableEq K] [DecidableEq S]

/-- The messages publisher `p` broadcast, oldest first: message `m` is the `m`-th one. -/
def bcasts (p : P) : List (Ev P K S V) → List V
  | [] => []
  | .bcast q v :: l => if q = p then bcasts p l ++ [v] else bcasts p l
  | _ :: l => bcasts p l

/-- The number of the next message to arrive at channel `k`: messages broadcast before it was connected
plus the messages that arrived since. -/
def nextId (cfg : Cfg P K S) (k : K) : List (Ev P K S V) → Nat
  | [] => 0
  | .connected k' :: l => if k' = k then (bcasts (cfg.pubOf k) l).length else nextId cfg k l
  | .arrived k' :: l => if k' = k then nextId cfg k l + 1 else nextId cfg k l
  | _ :: l => nextId cfg k l

/-- What subscriber `s` received through channel `k` since it was last linked to it, oldest first:
message numbers and contents. -/
def recvd (s : S) (k : K) : List (Ev P K S V) → List (Nat × V)
  | [] => []
  | .linked s' k' :: l => if s' = s ∧ k' = k then [] else recvd s k l
  | .recv s' k' m v :: l => if s' = s ∧ k' = k then recvd s k l ++ [(m, v)] else recvd s k l
  | _ :: l => recvd s k l

/-- The number of the first message to arrive at `k` after `s` was last linked to it. -/
def startId (cfg : Cfg P K S) (s : S) (k : K) : List (Ev P K S V) → Nat
  | [] => 0
  | .linked s' k' :: l => if s' = s ∧ k' = k then nextId cfg k l else startId cfg s k l
  | _ :: l => startId cfg s k l

/-- How many messages the publisher of `k` had broadcast when `s` was last linked to `k`. -/
def sentBeforeLink (cfg : Cfg P K S) (s : S) (k : K) : List (Ev P K S V) → Nat
  | [] => 0
  | .linked s' k' :: l =>
    if s' = s ∧ k' = k then (bcasts (cfg.pubOf k) l).length else sentBeforeLink cfg s k l
  | _ :: l => sentBeforeLink cfg s k l

/-- The messages `s` finished with since it was last linked to `k`. -/
def finished (s : S) (k : K) : List (Ev P K S V) → List Nat
  | [] => []
  | .linked s' k' :: l => if s' = s ∧ k' = k then [] else finished s k l
  | .done s' k' m :: l => if s' = s ∧ k' = k then finished s k l ++ [m] else finished s k l
  | _ :: l => finished s k l

/-- How many `sync()` calls of `p` were made. -/
def syncCalls (p : P) : List (Ev P K S V) → Nat
  | [] => 0
  | .syncing q :: l => if q = p then syncCalls p l + 1 else syncCalls p l
  | _ :: l => syncCalls p l

/-- How many `sync()` calls of `p` returned. -/
def syncReturns (p : P) : List (Ev P K S V) → Nat
  | [] => 0
  | .synced q :: l => if q = p then syncReturns p l + 1 else syncReturns p l
  | _ :: l => syncReturns p l

/-- The steps are taken one after the other; stops at the first one that is disabled or raises. -/
def run (cfg : Cfg P K S) (st : St P K S V) : List (Act P K S V) → Res (St P K S V)
  | [] => .ok st
  | a :: as =>
    match step cfg st a with
    | .disabled => .disabled
    | .raised e => .raised e
    | .ok st' => run cfg st' as

/-- Some run from the initial state leads to `st`. -/
def Reachable (cfg : Cfg P K S) (st : St P K S V) : Prop :=
  ∃ as, run cfg (init cfg) as = .ok st

/-- Subscriber `s` was notified of message `m` of channel `k`'s publisher (the notification is in its
queue, or it is inside the `recv_zero_copy` block for it) and has not finished with it. -/
def Unfinished (cfg : Cfg P K S) (st : St P K S V) (k : K) (s : S) (m : Nat) : Prop :=
  (st.sub s).chans (cfg.pubOf k) = some k ∧
    ((cfg.pubOf k, m) ∈ (st.sub s).queue ∨ (cfg.pubOf k, m) ∈ (st.sub s).held)

/-- In this step a subscriber leaves channel `k` with unfinished messages. -/
def LeavesEarly (cfg : Cfg P K S) (st : St P K S V) (k : K) (a : Act P K S V) : Prop :=
  ∃ s m, a = .unlink s k ∧ Unfinished cfg st k s m

/-- Reachable without a subscriber ever leaving one of the channels `O` with unfinished messages. -/
inductive ReachableOrderly (cfg : Cfg P K S) (O : K → Prop) : St P K S V → Prop where
  | init : ReachableOrderly cfg O (Sys.init cfg)
  | step {st st' : St P K S V} {a : Act P K S V} : ReachableOrderly cfg O st →
      (∀ k, O k → ¬ LeavesEarly cfg st k a) → step cfg st a = .ok st' → ReachableOrderly cfg O st'

end Ez.Sys
