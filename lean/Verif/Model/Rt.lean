/-!
# Run-time model: outcomes of Go computations

A Go call that may mutate state and may panic is modelled as a function from a state to a `Res`.
`oom` ("out of model") is not a Go outcome: it is produced only when the recursion fuel given to a
model function runs out.  Theorems about termination show that it never arises with enough fuel.
-/

namespace Chaff

/-- Outcome of a Go call: a value and a new state, a panic, or exhaustion of the model's fuel. -/
inductive Res (σ α : Type) where
  | ok (a : α) (s : σ)
  | panic (msg : String)
  | oom
deriving Inhabited

/-- A stateful Go computation. -/
def Comp (σ α : Type) : Type := σ → Res σ α

namespace Comp
variable {σ α β : Type}

/-- Return a value without touching the state. -/
def ret (a : α) : Comp σ α := fun s => .ok a s

/-- Sequential composition: a panic aborts, exactly as an unrecovered Go panic does. -/
def andThen (m : Comp σ α) (f : α → Comp σ β) : Comp σ β := fun s =>
  match m s with
  | .ok a s' => f a s'
  | .panic e => .panic e
  | .oom => .oom

instance : Monad (Comp σ) where
  pure := ret
  bind := andThen

/-- A Go `panic`. -/
def fail (msg : String) : Comp σ α := fun _ => .panic msg

/-- Fuel exhausted. -/
def outOfFuel : Comp σ α := fun _ => .oom

/-- Read the whole state. -/
def getS : Comp σ σ := fun s => .ok s s

/-- Update the state. -/
def modS (f : σ → σ) : Comp σ Unit := fun s => .ok () (f s)

end Comp

/-- Length of a list as a Go `int` (`len(x)`).  Overflow of `int` is not modelled. -/
def goLen {α : Type} (l : List α) : Int := (l.length : Int)

end Chaff
