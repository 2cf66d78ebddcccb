import Verif.Sync.Writer

/-!
# Specification vocabulary for the sync writer

Everything here talks about the sequence of accepted messages, the Delta logs and the buffer as
an observer sees them.  Nothing refers to the writer's transaction bookkeeping.
-/

namespace Seafowl.Sync

variable {σ β : Type}

/-- The message carries at least one row. -/
def Msg.nonempty (env : Env σ β) (m : Msg σ β) : Bool := decide (0 < rowsOfBatches env m.batches)

/-- The message is the last one of its transaction: it carries the sequence number. -/
def Msg.closes (m : Msg σ β) : Bool := m.sequence.isSome

/-- Number of the transaction that the `j`-th accepted message belongs to: transactions are
consecutive runs of messages, each ended by a message with a sequence number. -/
def txNo (acc : List (Msg σ β)) (j : Nat) : Nat := (acc.take j).countP Msg.closes

/-- The completed transactions in order: origin and sequence number of each closing message. -/
def closings (acc : List (Msg σ β)) : List (Origin × Seq) :=
  acc.filterMap (fun m => m.sequence.map (fun s => (m.origin, s)))

/-- The last sequence number of an origin in a list of completed transactions. -/
def lastOf (o : Origin) (cs : List (Origin × Seq)) : Option Seq :=
  ((cs.filter (fun p => p.1 = o)).getLast?).map (·.2)

/-- Positions of the accepted non-empty messages for a table, in order. -/
def positions (env : Env σ β) (acc : List (Msg σ β)) (u : Url) : List Nat :=
  acc.zipIdx.filterMap (fun p => if p.1.url = u ∧ p.1.nonempty env then some p.2 else none)

/-- Positions of the messages whose data the given commits contain, in commit order. -/
def commitMsgs (cs : List (Commit σ β)) : List Nat :=
  cs.flatMap (fun c => c.items.flatMap (·.msgs))

/-- The commits made to table `u` since the process started with logs `log0`. -/
def newCommits (log0 log : Log σ β) (u : Url) : List (Commit σ β) := (log u).drop (log0 u).length

/-- Positions of the messages committed to table `u` since the process started. -/
def committed (log0 log : Log σ β) (u : Url) : List Nat := commitMsgs (newCommits log0 log u)

/-- Positions of the messages buffered in memory for table `u`. -/
def pending (w : Writer σ β) (u : Url) : List Nat :=
  match alGet u w.syncs with
  | some c => c.syncs.flatMap (·.msgs)
  | none => []

/-- The transaction of the last accepted message has not been closed yet. -/
def isOpen (acc : List (Msg σ β)) : Bool :=
  match acc.getLast? with
  | some m => m.sequence.isNone
  | none => false

/-- Number of transactions begun so far. -/
def txCount (acc : List (Msg σ β)) : Nat := acc.countP Msg.closes + (if isOpen acc then 1 else 0)

/-- `Derived env acc ms s d`: the batches `d` with schema `s` are what one gets from the accepted
messages at the positions `ms`, in this order, by putting the batches of compatible messages one
after the other and squashing what has been collected so far any number of times. -/
inductive Derived (env : Env σ β) (acc : List (Msg σ β)) : List Nat → σ → List β → Prop
  | one {i : Nat} {m : Msg σ β} : acc[i]? = some m → Derived env acc [i] m.schema m.batches
  | more {ms : List Nat} {s : σ} {d : List β} {i : Nat} {m : Msg σ β} :
      Derived env acc ms s d → acc[i]? = some m → env.compat s m.schema = true →
      Derived env acc (ms ++ [i]) s (d ++ m.batches)
  | squash {ms : List Nat} {s s' : σ} {d : List β} {b : β} :
      Derived env acc ms s d → env.squash s d = some (s', b) → Derived env acc ms s' [b]

/-- What the sync info `ci` of a commit to table `u` promises.  `before` are the changes in the
commits since process start up to and including this one, and `n` is the number of messages
accepted at the time of the commit:
* every change to `u` accepted by then is in the table, and only those are;
* the named transaction is one that had been closed by then, or it is the one named by the newest
  commit found in the table when the process started;
* `newTx` tells whether the table contains changes of the transaction open at that time;
* the named transaction is not older than any completed transaction that provided the last change of
  one of the `items` of the commit. -/
structure InfoSound (env : Env σ β) (acc : List (Msg σ β)) (start : List (Commit σ β)) (u : Url)
    (before : List Nat) (items : List (Item σ β)) (ci : CommitInfo) (n : Nat) : Prop where
  le : n ≤ acc.length
  complete : ∀ j, j < n → j ∈ positions env acc u → j ∈ before
  only : ∀ j ∈ before, j < n ∧ j ∈ positions env acc u
  named : (∃ i m, i < n ∧ acc[i]? = some m ∧ m.origin = ci.origin ∧ m.sequence = some ci.sequence) ∨
    (∃ c0 ci0, start.getLast? = some c0 ∧ c0.info = some ci0 ∧
      ci0.origin = ci.origin ∧ ci0.sequence = ci.sequence)
  newTx : ci.newTx = true ↔ ∃ j ∈ before, ∀ i m, j ≤ i → i < n → acc[i]? = some m → m.sequence = none
  newest : ∀ it ∈ items, ∀ j, it.msgs.getLast? = some j →
    (∃ k mk, j ≤ k ∧ k < n ∧ acc[k]? = some mk ∧ mk.sequence ≠ none) →
    ∃ i m, i < n ∧ acc[i]? = some m ∧ m.origin = ci.origin ∧ m.sequence = some ci.sequence ∧ j ≤ i

end Seafowl.Sync
