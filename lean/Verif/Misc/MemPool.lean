/-
The memory pool with metrics.

Modelled: /repo/src/memory_pool.rs 14-121, and the choice of the wrapped pool in
/repo/src/config/context.rs 135-145.  The wrapped pools are DataFusion's: `GreedyMemoryPool` and
`UnboundedMemoryPool`, each one atomic counter.

Sizes, the gauge and the counters are natural numbers: the gauge is a 64 bit float (exact up to
2^53 bytes), the counters are 64 bit integers.
-/
namespace Seafowl.MemPool

/-- The wrapped pool: how much is used, and the limit of a greedy pool. -/
structure Inner where
  used : Nat
  limit : Option Nat
  deriving DecidableEq, Repr

/-- `grow` of both pools: `used += additional`. -/
def Inner.grow (i : Inner) (additional : Nat) : Inner := { i with used := i.used + additional }

/-- `shrink` of both pools: `used -= shrink`. -/
def Inner.shrink (i : Inner) (n : Nat) : Inner := { i with used := i.used - n }

/-- `try_grow`: a greedy pool refuses what would exceed its size and changes nothing then. -/
def Inner.tryGrow (i : Inner) (additional : Nat) : Inner × Bool :=
  match i.limit with
  | none => (i.grow additional, true)
  | some l => if i.used + additional ≤ l then (i.grow additional, true) else (i, false)

/-- `extract_consumer_name` (memory_pool.rs 57-62): the name up to the first `[`. -/
def extractConsumerName (name : List Char) : List Char := name.takeWhile (· ≠ '[')

/-- The metrics: one gauge, and counters by consumer (and result). -/
structure Metrics where
  reserved : Nat
  allocated : List Char → Bool → Nat
  freed : List Char → Nat

/-- `MemoryPoolMetrics` (64-67). -/
structure Pool where
  inner : Inner
  metrics : Metrics

/-- `Metrics::register_allocation` (38-47). -/
def Metrics.registerAllocation (m : Metrics) (name : List Char) (size : Nat) (success : Bool) : Metrics :=
  { m with allocated := fun n r =>
      if n = extractConsumerName name ∧ r = success then m.allocated n r + size else m.allocated n r }

/-- `Metrics::register_deallocation` (49-52). -/
def Metrics.registerDeallocation (m : Metrics) (name : List Char) (size : Nat) : Metrics :=
  { m with freed := fun n =>
      if n = extractConsumerName name then m.freed n + size else m.freed n }

/-- `self.metrics.memory_reserved.set(self.inner.reserved() as f64)` (95-97, 103-105, 115-117). -/
def Pool.setGauge (p : Pool) : Pool :=
  { p with metrics := { p.metrics with reserved := p.inner.used } }

/-- `MemoryPoolMetrics::new` (76-82): the gauge is set to 0; the counters go on. -/
def Pool.new (inner : Inner) (m : Metrics) : Pool :=
  { inner, metrics := { m with reserved := 0 } }

/-- `grow` (93-99). -/
def Pool.grow (p : Pool) (name : List Char) (additional : Nat) : Pool :=
  let p := { p with inner := p.inner.grow additional }
  let p := p.setGauge
  { p with metrics := p.metrics.registerAllocation name additional true }

/-- `shrink` (101-107). -/
def Pool.shrink (p : Pool) (name : List Char) (n : Nat) : Pool :=
  let p := { p with inner := p.inner.shrink n }
  let p := p.setGauge
  { p with metrics := p.metrics.registerDeallocation name n }

/-- `try_grow` (109-121). -/
def Pool.tryGrow (p : Pool) (name : List Char) (additional : Nat) : Pool × Bool :=
  let r := p.inner.tryGrow additional
  let p := { p with inner := r.1 }
  let p := p.setGauge
  ({ p with metrics := p.metrics.registerAllocation name additional r.2 }, r.2)

/-- Calls of the pool by a consumer. -/
inductive Op where
  | grow (name : List Char) (n : Nat)
  | shrink (name : List Char) (n : Nat)
  | tryGrow (name : List Char) (n : Nat)
  deriving DecidableEq, Repr

def Pool.step (p : Pool) : Op → Pool
  | .grow c n => p.grow c n
  | .shrink c n => p.shrink c n
  | .tryGrow c n => (p.tryGrow c n).1

def Pool.run (p : Pool) : List Op → Pool
  | [] => p
  | o :: os => (p.step o).run os

/-! Concurrency.  A call touches the wrapped pool, then reads it, then sets the gauge, then counts:
four steps, each atomic by itself.  The count commutes with everything and is left out. -/

/-- Where a call is: about to touch the wrapped pool, about to read it, about to set the gauge to
what it read, done. -/
inductive Pc where
  | start (o : Op) | read | set (v : Nat) | done
  deriving DecidableEq, Repr

structure Shared where
  inner : Inner
  gauge : Nat
  calls : List Pc
  deriving DecidableEq, Repr

/-- The effect of a call on the wrapped pool. -/
def Inner.apply (i : Inner) : Op → Inner
  | .grow _ n => i.grow n
  | .shrink _ n => i.shrink n
  | .tryGrow _ n => (i.tryGrow n).1

/-- The next step of call `k`. -/
def Shared.step (s : Shared) (k : Nat) : Shared :=
  match s.calls[k]? with
  | some (.start o) => { s with inner := s.inner.apply o, calls := s.calls.set k .read }
  | some .read => { s with calls := s.calls.set k (.set s.inner.used) }
  | some (.set v) => { s with gauge := v, calls := s.calls.set k .done }
  | _ => s

def Shared.run (s : Shared) : List Nat → Shared
  | [] => s
  | k :: ks => (s.step k).run ks

/-- `build_context` (context.rs 135-145): the size of the greedy pool in bytes for a limit in MiB.
Rounding of the floating point product is the parameter `round`; the multiplication is done in 64
bits (release builds wrap). -/
def poolSize (round : Nat → Nat) (maxMemory : Nat) : Nat := round ((maxMemory * 1048576) % 2 ^ 64)

end Seafowl.MemPool
