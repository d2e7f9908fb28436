import Verif.Model.Calls
/-!
# Random sources that were used before
-/

namespace Chaff

/-- `w'` is `w` after some numbers have been drawn: the sources continue, everything else is the same. -/
def Continues (w w' : World) : Prop :=
  ∃ a b, w' = { w with seeded := fun i => w.seeded (i + a), ambient := fun i => w.ambient (i + b) }

/-- The random source of a call: the caller's, or the one that the call makes for itself. -/
def sourceOf (w : World) (k : GenCall) : World :=
  match k.source with
  | none => w
  | some f => { w with seeded := f }

/-- The same outcome, up to the positions in the random sources. -/
def SameEnd : Res GSt JVal → Res GSt JVal → Prop
  | .ok v s, .ok v' s' => v = v' ∧ s.diags = s'.diags ∧ s.complexity = s'.complexity ∧ s.refs = s'.refs
  | .panic e, .panic e' => e = e'
  | .oom, .oom => True
  | _, _ => False

end Chaff
