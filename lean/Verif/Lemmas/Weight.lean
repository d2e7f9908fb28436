import Verif.Model.Parse
import Verif.Lemmas.KV
/-!
# Weight of a schema

`wt e w n` counts `e` for every sub-schema slot in use anywhere in `n` (two for `if`), plus `w r` for every
reference text `r` in it.  With `e = 1` it measures the size of a schema, with `e = 0` and `w = 1` it counts
references.  Merging schemas never makes the sum of their weights larger.
-/

namespace Chaff

/-- Weight of an optional reference. -/
def wtRef (w : String → Nat) : Option String → Nat
  | none => 0
  | some r => w r

mutual
/-- Weight of a node. -/
def wt (e : Nat) (w : String → Nat) : SchemaNode → Nat
  | ⟨base, props, addP, patP, items, cont, pre, addI, unevI, notN, allO, anyO, oneO, defs, dfn, ifN, thenN,
      elseN, depS, mIf, mNot, _⟩ =>
    wtRef w base.ref + wtOM e w props + wtOF e w addP + wtOM e w patP + wtOI e w items + wtO e w cont +
      wtOL e w pre + wtOF e w addI + wtOF e w unevI + wtO e w notN + wtOL e w allO + wtOL e w anyO +
      wtOL e w oneO + wtOM e w defs + wtOM e w dfn + wtIf e w ifN + wtO e w thenN + wtO e w elseN +
      wtM e w depS + wtIfs e w mIf + wtL e w mNot
/-- Weight of an optional map. -/
def wtOM (e : Nat) (w : String → Nat) : Option (List (String × SchemaNode)) → Nat
  | none => 0
  | some m => wtM e w m
/-- Weight of a map. -/
def wtM (e : Nat) (w : String → Nat) : List (String × SchemaNode) → Nat
  | [] => 0
  | p :: t => e + wtP e w p + wtM e w t
/-- Weight of an entry. -/
def wtP (e : Nat) (w : String → Nat) : String × SchemaNode → Nat
  | (_, n) => wt e w n
/-- Weight of an optional node. -/
def wtO (e : Nat) (w : String → Nat) : Option SchemaNode → Nat
  | none => 0
  | some n => e + wt e w n
/-- Weight of the `if` slot. -/
def wtIf (e : Nat) (w : String → Nat) : Option SchemaNode → Nat
  | none => 0
  | some n => 2 * e + wt e w n
/-- Weight of an optional list. -/
def wtOL (e : Nat) (w : String → Nat) : Option (List SchemaNode) → Nat
  | none => 0
  | some l => wtL e w l
/-- Weight of a list. -/
def wtL (e : Nat) (w : String → Nat) : List SchemaNode → Nat
  | [] => 0
  | n :: t => e + wt e w n + wtL e w t
/-- Weight of an optional schema-or-false. -/
def wtOF (e : Nat) (w : String → Nat) : Option (NodeOrFalse SchemaNode) → Nat
  | none => 0
  | some x => e + wtF e w x
/-- Weight of a schema-or-false. -/
def wtF (e : Nat) (w : String → Nat) : NodeOrFalse SchemaNode → Nat
  | ⟨s, _⟩ => wtO e w s
/-- Weight of an optional `items`. -/
def wtOI (e : Nat) (w : String → Nat) : Option (ItemsData SchemaNode) → Nat
  | none => 0
  | some x => wtI e w x
/-- Weight of `items`. -/
def wtI (e : Nat) (w : String → Nat) : ItemsData SchemaNode → Nat
  | ⟨s, l, _⟩ => wtO e w s + wtOL e w l
/-- Weight of the collected conditionals. -/
def wtIfs (e : Nat) (w : String → Nat) : List (IfStmt SchemaNode) → Nat
  | [] => 0
  | x :: t => wtSt e w x + wtIfs e w t
/-- Weight of a conditional. -/
def wtSt (e : Nat) (w : String → Nat) : IfStmt SchemaNode → Nat
  | ⟨_, i, t, f⟩ => e + wtO e w i + wtO e w t + wtO e w f
end

/-- Sum of the weights of some nodes. -/
def wtSum (e : Nat) (w : String → Nat) : List SchemaNode → Nat
  | [] => 0
  | n :: t => wt e w n + wtSum e w t

variable {e : Nat} {w : String → Nat}

theorem wt_eq (n : SchemaNode) : wt e w n =
    wtRef w n.ref + wtOM e w n.properties + wtOF e w n.additionalProperties + wtOM e w n.patternProperties +
      wtOI e w n.items + wtO e w n.contains + wtOL e w n.prefixItems + wtOF e w n.additionalItems +
      wtOF e w n.unevaluatedItems + wtO e w n.not + wtOL e w n.allOf + wtOL e w n.anyOf + wtOL e w n.oneOf +
      wtOM e w n.defs + wtOM e w n.definitions + wtIf e w n.ifN + wtO e w n.thenN + wtO e w n.elseN +
      wtM e w n.dependentSchemas + wtIfs e w n.mergedIf + wtL e w n.mergedNot := by
  cases n; rfl

@[simp] theorem wtO_none : wtO e w none = 0 := rfl
@[simp] theorem wtO_some (n) : wtO e w (some n) = e + wt e w n := rfl
@[simp] theorem wtIf_none : wtIf e w none = 0 := rfl
@[simp] theorem wtIf_some (n) : wtIf e w (some n) = 2 * e + wt e w n := rfl
@[simp] theorem wtOM_none : wtOM e w none = 0 := rfl
@[simp] theorem wtOM_some (m) : wtOM e w (some m) = wtM e w m := rfl
@[simp] theorem wtM_nil : wtM e w [] = 0 := rfl
@[simp] theorem wtM_cons (k n t) : wtM e w ((k, n) :: t) = e + wt e w n + wtM e w t := rfl
@[simp] theorem wtOL_none : wtOL e w none = 0 := rfl
@[simp] theorem wtOL_some (l) : wtOL e w (some l) = wtL e w l := rfl
@[simp] theorem wtL_nil : wtL e w [] = 0 := rfl
@[simp] theorem wtL_cons (n t) : wtL e w (n :: t) = e + wt e w n + wtL e w t := rfl
@[simp] theorem wtOF_none : wtOF e w none = 0 := rfl
@[simp] theorem wtOF_some (x) : wtOF e w (some x) = e + wtO e w x.schema := by cases x; rfl
@[simp] theorem wtOI_none : wtOI e w none = 0 := rfl
@[simp] theorem wtOI_some (x) : wtOI e w (some x) = wtO e w x.node + wtOL e w x.nodes := by cases x; rfl
@[simp] theorem wtIfs_nil : wtIfs e w [] = 0 := rfl
@[simp] theorem wtIfs_cons (x t) : wtIfs e w (x :: t) =
    e + wtO e w x.ifN + wtO e w x.thenN + wtO e w x.elseN + wtIfs e w t := by cases x; rfl
@[simp] theorem wtRef_none : wtRef w none = 0 := rfl
@[simp] theorem wtRef_some (r) : wtRef w (some r) = w r := rfl
@[simp] theorem wtSum_nil : wtSum e w [] = 0 := rfl
@[simp] theorem wtSum_cons (n t) : wtSum e w (n :: t) = wt e w n + wtSum e w t := rfl
@[simp] theorem wt_empty : wt e w emptyNode = 0 := rfl
@[simp] theorem wt_default : wt e w {} = 0 := rfl

@[simp] theorem wtL_append (a b : List SchemaNode) : wtL e w (a ++ b) = wtL e w a + wtL e w b := by
  induction a with
  | nil => simp
  | cons x t ih => simp [ih]; omega
@[simp] theorem wtSum_append (a b : List SchemaNode) : wtSum e w (a ++ b) = wtSum e w a + wtSum e w b := by
  induction a with
  | nil => simp
  | cons x t ih => simp [ih]; omega
@[simp] theorem wtIfs_append (a b : List (IfStmt SchemaNode)) : wtIfs e w (a ++ b) = wtIfs e w a + wtIfs e w b := by
  induction a with
  | nil => simp
  | cons x t ih => simp [ih]; omega
theorem wtL_eq (l : List SchemaNode) : wtL e w l = e * l.length + wtSum e w l := by
  induction l with
  | nil => simp
  | cons x t ih => simp only [wtL_cons, ih, wtSum_cons, List.length_cons, Nat.mul_add]; omega

theorem wtL_mem {l : List SchemaNode} {n : SchemaNode} (h : n ∈ l) : e + wt e w n ≤ wtL e w l := by
  induction l with
  | nil => simp at h
  | cons x t ih =>
    simp only [wtL_cons]
    rcases List.mem_cons.1 h with h | h
    · subst h; omega
    · have := ih h; omega
theorem wtM_mem {m : List (String × SchemaNode)} {k : String} {n : SchemaNode} (h : (k, n) ∈ m) :
    e + wt e w n ≤ wtM e w m := by
  induction m with
  | nil => simp at h
  | cons x t ih =>
    obtain ⟨k', n'⟩ := x
    simp only [wtM_cons]
    rcases List.mem_cons.1 h with h | h
    · cases h; omega
    · have := ih h; omega
theorem wtSum_mem {l : List SchemaNode} {n : SchemaNode} (h : n ∈ l) : wt e w n ≤ wtSum e w l := by
  induction l with
  | nil => simp at h
  | cons x t ih =>
    simp only [wtSum_cons]
    rcases List.mem_cons.1 h with h | h
    · subst h; omega
    · have := ih h; omega

theorem wtM_insert_some {m : List (String × SchemaNode)} {k : String} {x y : SchemaNode}
    (h : lookupKV m k = some y) : wtM e w (insertKV m k x) + wt e w y = wtM e w m + wt e w x := by
  induction m with
  | nil => simp [lookupKV] at h
  | cons p t ih =>
    obtain ⟨k', n'⟩ := p
    simp only [lookupKV, insertKV] at h ⊢
    split at h
    · rename_i hk
      cases h
      rw [if_pos hk]
      simp only [wtM_cons]; omega
    · rename_i hk
      rw [if_neg hk]
      have := ih h
      simp only [wtM_cons]; omega

theorem wtM_insert_none {m : List (String × SchemaNode)} {k : String} {x : SchemaNode}
    (h : lookupKV m k = none) : wtM e w (insertKV m k x) = wtM e w m + e + wt e w x := by
  induction m with
  | nil => simp [insertKV]
  | cons p t ih =>
    obtain ⟨k', n'⟩ := p
    simp only [lookupKV, insertKV] at h ⊢
    split at h
    · cases h
    · rename_i hk
      rw [if_neg hk]
      have := ih h
      simp only [wtM_cons]; omega

theorem wtM_insert_le (m : List (String × SchemaNode)) (k : String) (x : SchemaNode) :
    wtM e w (insertKV m k x) ≤ wtM e w m + e + wt e w x := by
  cases h : lookupKV m k with
  | none => rw [wtM_insert_none h]
  | some y => have := wtM_insert_some (e := e) (w := w) (x := x) h; omega

theorem wtOM_zero (m : Option (List (String × SchemaNode))) : wtM e w (getZeroIfNil m []) = wtOM e w m := by
  cases m <;> rfl
theorem wtOL_zero (m : Option (List SchemaNode)) : wtL e w (getZeroIfNil m []) = wtOL e w m := by
  cases m <;> rfl

theorem wtOL_slicePtrs (a b : Option (List SchemaNode)) :
    wtOL e w (mergeSlicePtrs [a, b]) = wtOL e w a + wtOL e w b := by
  cases a with
  | none =>
    cases b with
    | none => simp [mergeSlicePtrs]
    | some b => cases b <;> simp [mergeSlicePtrs]
  | some a =>
    cases b with
    | none => cases a <;> simp [mergeSlicePtrs]
    | some b => cases a <;> cases b <;> simp [mergeSlicePtrs] <;> omega

theorem wt_setAllowed (m : SchemaNode) (l : List JVal) : wt e w (setAllowed m l) = wt e w m := by
  unfold setAllowed
  split <;> · rw [wt_eq, wt_eq m]

theorem wt_mergeNot (m n : SchemaNode) : wt e w (mergeNot m n) ≤ wt e w m + wtO e w n.not + wtL e w n.mergedNot := by
  have h1 : wt e w (mergeNotOwn m n) ≤ wt e w m + wtO e w n.not := by
    rw [mergeNotOwn]
    split
    · simp
    · rename_i x hx
      rw [hx]
      split
      · rename_i y hy
        rw [wt_eq, wt_eq m, hy]; simp; omega
      · rename_i hy
        split <;> · rw [wt_eq, wt_eq m, hy]; simp; try omega
  have h2 : wt e w (mergeNotCollected (mergeNotOwn m n) n) ≤ wt e w (mergeNotOwn m n) + wtL e w n.mergedNot := by
    generalize mergeNotOwn m n = m
    rw [mergeNotCollected]
    split
    · split
      · rename_i y hy
        rw [wt_eq, wt_eq m, hy]; simp; omega
      · rename_i hy
        rw [wt_eq, wt_eq m, hy]; simp; omega
    · omega
  rw [mergeNot]; omega

theorem wt_mergeIf (path : String) (m n : SchemaNode) : wt e w (mergeIf path m n) ≤
    wt e w m + wtIf e w n.ifN + wtO e w n.thenN + wtO e w n.elseN + wtIfs e w n.mergedIf := by
  have h : wtIfs e w (if 0 < n.mergedIf.length then m.mergedIf ++ n.mergedIf else m.mergedIf) ≤
      wtIfs e w m.mergedIf + wtIfs e w n.mergedIf := by
    split
    · simp
    · omega
  rw [mergeIf, wt_eq, wt_eq m]
  simp only
  split
  · rename_i hi
    obtain ⟨x, hx⟩ := Option.isSome_iff_exists.1 hi
    simp only [wtIfs_append, wtIfs_cons, wtIfs_nil, newIfStatement, hx, wtO_some, wtIf_some] at h ⊢
    omega
  · omega

theorem wt_mergeSimple (F : FP) (m n : SchemaNode) : wt e w (mergeSimple F m n) = wt e w m := by
  rw [wt_eq, wt_eq m]; rfl

end Chaff
