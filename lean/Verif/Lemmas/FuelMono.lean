import Verif.Model.Parse
import Verif.Lemmas.Comp
/-!
# The fuel of the parser only decides whether there is an answer

`Leq m m'`: whenever `m` gives an answer (a result or a panic), `m'` gives the same answer.  Every part of the parser run with
more fuel is above the same part run with less.
-/

namespace Chaff
open Comp

/-- `m'` agrees with `m` wherever `m` does not run out of fuel. -/
def Leq {α : Type} (m m' : P α) : Prop := ∀ s, m s = .oom ∨ m' s = m s

section
variable {α β : Type}

theorem Leq.refl (m : P α) : Leq m m := fun _ => .inr rfl
theorem Leq.oom {m : P α} : Leq (Comp.outOfFuel : P α) m := fun _ => .inl rfl

theorem Leq.bind {m m' : P α} {f f' : α → P β} (hm : Leq m m') (hf : ∀ a, Leq (f a) (f' a)) : Leq (m >>= f) (m' >>= f') := by
  intro s
  rw [bind_apply, bind_apply]
  rcases hm s with h | h
  · left
    rw [h]
  · rw [h]
    cases m s with
    | ok a s' => exact hf a s'
    | panic e => exact .inr rfl
    | oom => exact .inl rfl

theorem Leq.ite {p : Prop} [Decidable p] {a a' b b' : P α} (ha : Leq a a') (hb : Leq b b') :
    Leq (if p then a else b) (if p then a' else b') := by
  by_cases h : p
  · rw [if_pos h, if_pos h]; exact ha
  · rw [if_neg h, if_neg h]; exact hb

theorem Leq.trans {a b d : P α} (h1 : Leq a b) (h2 : Leq b d) : Leq a d := by
  intro s
  rcases h1 s with h | h
  · exact .inl h
  · rcases h2 s with h' | h'
    · rw [h'] at h; exact .inl h.symm
    · exact .inr (h'.trans h)

end

variable {c : PEnv}

/-- More fuel for merging. -/
def MergeLeq (rec rec' : MergeRec) : Prop := ∀ l, Leq (rec l) (rec' l)

section
variable {rec rec' : MergeRec}

theorem leq_mergeMapLoop (h : MergeLeq rec rec') : ∀ (t m : List (String × SchemaNode)),
    Leq (mergeMapLoop rec m t) (mergeMapLoop rec' m t) := by
  intro t
  induction t with
  | nil => intro m; exact Leq.refl _
  | cons x t ih =>
    obtain ⟨k, v⟩ := x
    intro m
    unfold mergeMapLoop
    split
    · exact Leq.bind (h _) fun _ => ih _
    · exact ih _

theorem leq_mergeMap (h : MergeLeq rec rec') (a b : Option (List (String × SchemaNode))) :
    Leq (mergeMap rec a b) (mergeMap rec' a b) := by
  unfold mergeMap
  split
  · exact Leq.refl _
  · exact Leq.bind (leq_mergeMapLoop h _ _) fun _ => Leq.refl _

theorem leq_mergeZip (h : MergeLeq rec rec') : ∀ a b : List SchemaNode, Leq (mergeZip rec a b) (mergeZip rec' a b) := by
  intro a
  induction a with
  | nil => intro b; exact Leq.refl _
  | cons x t ih =>
    intro b
    cases b with
    | nil => exact Leq.refl _
    | cons y u =>
      unfold mergeZip
      exact Leq.bind (h _) fun _ => Leq.bind (ih _) fun _ => Leq.refl _

theorem leq_mergePrefixItems (h : MergeLeq rec rec') (a b : Option (List SchemaNode)) :
    Leq (mergePrefixItems rec a b) (mergePrefixItems rec' a b) := by
  unfold mergePrefixItems
  split
  · exact Leq.refl _
  · exact Leq.bind (leq_mergeZip h _ _) fun _ => Leq.refl _

theorem leq_mergeItems (h : MergeLeq rec rec') (a b : Option (ItemsData SchemaNode)) :
    Leq (mergeItems rec a b) (mergeItems rec' a b) := by
  have h := fun l => h l
  unfold mergeItems
  dsimp only
  split
  · exact Leq.refl _
  · split
    · exact Leq.refl _
    · refine Leq.ite (Leq.refl _) ?_
      split
      · exact Leq.bind (h _) fun _ => Leq.refl _
      · exact Leq.refl _

theorem leq_mergeNodeOrFalse (h : MergeLeq rec rec') (a b : Option (NodeOrFalse SchemaNode)) :
    Leq (mergeNodeOrFalse rec a b) (mergeNodeOrFalse rec' a b) := by
  unfold mergeNodeOrFalse
  split
  · exact Leq.refl _
  · exact Leq.refl _
  · refine Leq.ite (Leq.refl _) (Leq.ite (Leq.refl _) ?_)
    split
    · exact Leq.refl _
    · exact Leq.refl _
    · exact Leq.bind (h _) fun _ => Leq.refl _

theorem leq_mergePtrs (h : MergeLeq rec rec') (a b : Option SchemaNode) : Leq (mergePtrs rec a b) (mergePtrs rec' a b) := by
  unfold mergePtrs
  split
  · exact Leq.refl _
  · exact Leq.refl _
  · exact Leq.refl _
  · exact Leq.bind (h _) fun _ => Leq.refl _

theorem leq_mergeSubs (h : MergeLeq rec rec') (m n : SchemaNode) : Leq (mergeSubs rec m n) (mergeSubs rec' m n) := by
  unfold mergeSubs
  refine Leq.bind (leq_mergeMap h _ _) fun _ => Leq.bind (leq_mergeNodeOrFalse h _ _) fun _ => Leq.bind (leq_mergeMap h _ _) fun _ =>
    Leq.bind (leq_mergePrefixItems h _ _) fun _ => Leq.bind (leq_mergeItems h _ _) fun _ => Leq.bind (leq_mergeNodeOrFalse h _ _) fun _ =>
    Leq.bind (leq_mergeNodeOrFalse h _ _) fun _ => Leq.bind (leq_mergePtrs h _ _) fun _ => Leq.refl _

theorem leq_mergeFields (F : FP) (h : MergeLeq rec rec') (m n : SchemaNode) :
    Leq (mergeFields F rec m n) (mergeFields F rec' m n) := by
  unfold mergeFields
  exact Leq.bind (Leq.refl _) fun _ => Leq.bind (leq_mergeSubs h _ _) fun _ => Leq.refl _

theorem leq_resolveRefLoop : ∀ (k k' : Nat) (l : List String) (n : SchemaNode), k ≤ k' →
    Leq (resolveRefLoop c k l n) (resolveRefLoop c k' l n) := by
  intro k
  induction k with
  | zero => intro k' l n _; exact Leq.oom
  | succ k ih =>
    intro k' l n hk
    obtain ⟨j, rfl⟩ : ∃ j, k' = j + 1 := ⟨k' - 1, by omega⟩
    unfold resolveRefLoop
    split
    · exact Leq.refl _
    · refine Leq.bind (Leq.refl _) fun r => ?_
      split
      · exact Leq.refl _
      · exact Leq.ite (Leq.refl _) (ih _ _ _ (by omega))

theorem leq_mergeResolveNodeRef {k k' : Nat} (hk : k ≤ k') (n : SchemaNode) :
    Leq (mergeResolveNodeRef c k n) (mergeResolveNodeRef c k' n) := by
  unfold mergeResolveNodeRef
  split
  · exact Leq.refl _
  · refine Leq.bind (Leq.refl _) fun r => ?_
    split
    · exact Leq.refl _
    · refine Leq.bind (Leq.refl _) fun _ => Leq.ite (Leq.refl _) (Leq.bind ?_ fun _ => Leq.refl _)
      unfold mergeResolveReference resolveRefBody
      exact Leq.bind (Leq.bind (leq_resolveRefLoop _ _ _ _ hk) fun _ => Leq.refl _) fun _ => Leq.refl _

theorem leq_flattenResolved (h : MergeLeq rec rec') (n : SchemaNode) (b : Bool) :
    Leq (flattenResolved rec n b) (flattenResolved rec' n b) := by
  unfold flattenResolved
  split
  · exact Leq.ite (h _) (Leq.refl _)
  · exact Leq.refl _

theorem leq_mergeLoop {k k' : Nat} (hk : k ≤ k') (h : MergeLeq rec rec') : ∀ (l : List SchemaNode) (m : SchemaNode),
    Leq (mergeLoop c k rec m l) (mergeLoop c k' rec' m l) := by
  intro l
  induction l with
  | nil => intro m; exact Leq.refl _
  | cons n t ih =>
    intro m
    unfold mergeLoop mergeOne
    exact Leq.bind (Leq.bind (leq_mergeResolveNodeRef hk _) fun _ => Leq.bind (leq_flattenResolved h _ _) fun _ =>
      Leq.bind (leq_mergeFields _ h _ _) fun _ => Leq.refl _) fun _ => ih _

theorem leq_flattenResidual (h : MergeLeq rec rec') : ∀ (k k' : Nat) (m : SchemaNode), k ≤ k' →
    Leq (flattenResidual c rec k m) (flattenResidual c rec' k' m) := by
  intro k
  induction k with
  | zero => intro k' m _; exact Leq.oom
  | succ k ih =>
    intro k' m hk
    obtain ⟨j, rfl⟩ : ∃ j, k' = j + 1 := ⟨k' - 1, by omega⟩
    unfold flattenResidual
    split
    · exact Leq.refl _
    · refine Leq.ite (Leq.refl _) (Leq.bind (Leq.refl _) fun _ => Leq.ite (Leq.refl _) (Leq.bind (Leq.refl _) fun _ =>
        Leq.bind (h _) fun _ => Leq.bind (Leq.refl _) fun _ => ih _ _ (by omega)))

theorem leq_mergeNodes : ∀ (k k' : Nat) (l : List SchemaNode), k ≤ k' → Leq (mergeNodes c k l) (mergeNodes c k' l) := by
  intro k
  induction k with
  | zero => intro k' l _; exact Leq.oom
  | succ k ih =>
    intro k' l hk
    obtain ⟨j, rfl⟩ : ∃ j, k' = j + 1 := ⟨k' - 1, by omega⟩
    have h : MergeLeq (mergeNodes c k) (mergeNodes c j) := fun l => ih j l (by omega)
    show Leq (mergeStep c k _ l) (mergeStep c j _ l)
    unfold mergeStep
    exact Leq.bind (leq_mergeLoop (by omega) h _ _) fun _ => leq_flattenResidual h _ _ _ (by omega)

end

/-! ## Negations -/

/-- More fuel for merging a negation. -/
def NotLeq (rec rec' : NotRec) : Prop := ∀ a b, Leq (rec a b) (rec' a b)

section
variable {rec rec' : NotRec}

theorem leq_notSubNode (h : NotLeq rec rec') (p : String) (a b : SchemaNode) :
    Leq (notSubNode rec p a b) (notSubNode rec' p a b) := by
  unfold notSubNode
  exact Leq.bind (Leq.refl _) fun _ => Leq.bind (h _ _) fun _ => Leq.refl _

theorem leq_notSubPtr (h : NotLeq rec rec') (p : String) (a b : Option SchemaNode) :
    Leq (notSubPtr rec p a b) (notSubPtr rec' p a b) := by
  unfold notSubPtr
  exact Leq.ite (Leq.refl _) (Leq.bind (leq_notSubNode h _ _ _) fun _ => Leq.refl _)

theorem leq_notItems (h : NotLeq rec rec') (a b : Option (ItemsData SchemaNode)) :
    Leq (notItems rec a b) (notItems rec' a b) := by
  unfold notItems
  dsimp only
  split
  · exact Leq.refl _
  · refine Leq.ite (Leq.refl _) (Leq.ite (Leq.refl _) ?_)
    have key : ∀ (a b : SchemaNode), Leq (do let r ← notSubNode rec "/not/items" a b; pure (some ({ node := some r, nodes := none, disallow := false } : ItemsData SchemaNode)) : P _)
        (do let r ← notSubNode rec' "/not/items" a b; pure (some ({ node := some r, nodes := none, disallow := false } : ItemsData SchemaNode))) :=
      fun a b => Leq.bind (leq_notSubNode h _ _ _) fun _ => Leq.refl _
    refine Leq.ite (Leq.bind (Leq.refl _) fun _ => ?_) ?_
    · exact Leq.ite (Leq.refl _) (key _ _)
    · exact Leq.ite (Leq.refl _) (key _ _)

theorem leq_notOrFalse (h : NotLeq rec rec') (p : String) (a b : Option (NodeOrFalse SchemaNode)) :
    Leq (notOrFalse rec p a b) (notOrFalse rec' p a b) := by
  unfold notOrFalse
  dsimp only
  refine Leq.ite (Leq.refl _) (Leq.ite (Leq.refl _) (Leq.ite (Leq.refl _) ?_))
  exact Leq.bind (leq_notSubNode h _ _ _) fun _ => Leq.refl _

theorem leq_notPrefixLoop (h : NotLeq rec rec') (l nl : List SchemaNode) (x : SchemaNode) : ∀ k i : Nat,
    Leq (notPrefixLoop rec l nl x k i) (notPrefixLoop rec' l nl x k i) := by
  intro k
  induction k with
  | zero => intro i; exact Leq.refl _
  | succ k ih =>
    intro i
    unfold notPrefixLoop
    exact Leq.bind (leq_notSubNode h _ _ _) fun _ => Leq.bind (ih _) fun _ => Leq.refl _

theorem leq_notPrefix (h : NotLeq rec rec') (a b : Option (List SchemaNode)) (x : Option (ItemsData SchemaNode)) :
    Leq (notPrefix rec a b x) (notPrefix rec' a b x) := by
  unfold notPrefix
  dsimp only
  exact Leq.ite (Leq.refl _) (Leq.bind (leq_notPrefixLoop h _ _ _ _ _) fun _ => Leq.refl _)

theorem leq_notPropsLoop (h : NotLeq rec rec') (p np : List (String × SchemaNode)) : ∀ (l : List String)
    (acc : List (String × SchemaNode)), Leq (notPropsLoop rec p np l acc) (notPropsLoop rec' p np l acc) := by
  intro l
  induction l with
  | nil => intro acc; exact Leq.refl _
  | cons k t ih =>
    intro acc
    unfold notPropsLoop
    split
    · split
      · exact ih _
      · exact ih _
    · exact Leq.bind (leq_notSubNode h _ _ _) fun _ => ih _

theorem leq_notApplyArray (h : NotLeq rec rec') (a b n : SchemaNode) :
    Leq (notApplyArray rec a b n) (notApplyArray rec' a b n) := by
  unfold notApplyArray
  refine Leq.bind (Leq.refl _) fun _ => Leq.bind (Leq.refl _) fun _ => Leq.bind (Leq.refl _) fun _ =>
    Leq.bind (leq_notItems h _ _) fun _ => ?_
  have key : ∀ (x : Option (ItemsData SchemaNode)) (n : SchemaNode) , Leq (do
      let uniqueItems ← resolveBool a.uniqueItems b.uniqueItems
      let prefixItems ← notPrefix rec a.prefixItems b.prefixItems x
      let unevaluatedItems ← notOrFalse rec "/not/unevaluatedItems" a.unevaluatedItems b.unevaluatedItems
      let contains ← notSubPtr rec "/not/contains" a.contains b.contains
      pure { n with
        items := x
        uniqueItems := uniqueItems
        prefixItems := prefixItems
        unevaluatedItems := unevaluatedItems
        contains := contains } : P SchemaNode) (do
      let uniqueItems ← resolveBool a.uniqueItems b.uniqueItems
      let prefixItems ← notPrefix rec' a.prefixItems b.prefixItems x
      let unevaluatedItems ← notOrFalse rec' "/not/unevaluatedItems" a.unevaluatedItems b.unevaluatedItems
      let contains ← notSubPtr rec' "/not/contains" a.contains b.contains
      pure { n with
        items := x
        uniqueItems := uniqueItems
        prefixItems := prefixItems
        unevaluatedItems := unevaluatedItems
        contains := contains }) := fun x n =>
    Leq.bind (Leq.refl _) fun _ => Leq.bind (leq_notPrefix h _ _ _) fun _ => Leq.bind (leq_notOrFalse h _ _ _) fun _ =>
      Leq.bind (leq_notSubPtr h _ _ _) fun _ => Leq.refl _
  refine Leq.ite (Leq.bind (Leq.refl _) fun _ => ?_) ?_
  · exact key _ _
  · exact key _ _

theorem leq_notApplyObject (h : NotLeq rec rec') (a b n : SchemaNode) (cc : ConstraintColl) :
    Leq (notApplyObject rec a b n cc) (notApplyObject rec' a b n cc) := by
  unfold notApplyObject
  exact Leq.bind (Leq.refl _) fun _ => Leq.bind (leq_notPropsLoop h _ _ _ _) fun _ => Leq.bind (Leq.refl _) fun _ =>
    Leq.bind (leq_notOrFalse h _ _ _) fun _ => Leq.refl _

theorem leq_notMerge : ∀ (k k' : Nat) (a b : SchemaNode), k ≤ k' → Leq (notMerge c k a b) (notMerge c k' a b) := by
  intro k
  induction k with
  | zero => intro k' a b _; exact Leq.oom
  | succ k ih =>
    intro k' a b hk
    obtain ⟨j, rfl⟩ : ∃ j, k' = j + 1 := ⟨k' - 1, by omega⟩
    have h : NotLeq (notMerge c k) (notMerge c j) := fun a b => ih j a b (by omega)
    show Leq (notStep c _ a b) (notStep c _ a b)
    unfold notStep
    split
    · exact Leq.refl _
    · exact Leq.bind (Leq.refl _) fun _ => Leq.bind (Leq.refl _) fun _ => Leq.bind (Leq.refl _) fun _ =>
        Leq.bind (Leq.refl _) fun _ => Leq.bind (leq_notApplyArray h _ _ _) fun _ =>
        Leq.bind (leq_notApplyObject h _ _ _ _) fun _ => Leq.refl _

theorem leq_applyNots {k k' : Nat} (hk : k ≤ k') : ∀ (l : List SchemaNode) (n : SchemaNode) (cc : ConstraintColl),
    Leq (applyNots c k n cc l) (applyNots c k' n cc l) := by
  intro l
  induction l with
  | nil => intro n cc; exact Leq.refl _
  | cons x t ih =>
    intro n cc
    unfold applyNots
    exact Leq.bind (leq_notMerge _ _ _ _ hk) fun _ => ih _ _

theorem leq_partitionNots {k k' : Nat} (hk : k ≤ k') : ∀ (l : List SchemaNode) (i : Nat),
    Leq (partitionNots c k i l) (partitionNots c k' i l) := by
  intro l
  induction l with
  | nil => intro i; exact Leq.refl _
  | cons x t ih =>
    intro i
    unfold partitionNots
    refine Leq.bind (Leq.refl _) fun _ => Leq.bind (leq_mergeNodes _ _ _ hk) fun _ => Leq.bind (Leq.refl _) fun _ => ?_
    split
    · exact Leq.bind (Leq.refl _) fun _ => Leq.bind (leq_mergeNodes _ _ _ hk) fun _ => Leq.bind (Leq.refl _) fun _ =>
        Leq.bind (ih _) fun _ => Leq.refl _
    · exact Leq.bind (ih _) fun _ => Leq.refl _

end

/-! ## parse -/

/-- More fuel for the recursive calls of the parser. -/
structure RecLeq (r r' : PRec) : Prop where
  node : ∀ n, Leq (r.node n) (r'.node n)
  schema : ∀ n, Leq (r.schema n) (r'.schema n)
  fuel : r.fuel ≤ r'.fuel

section
variable {r r' : PRec}

theorem leq_parseInScope (h : RecLeq r r') (p : String) (n : SchemaNode) (l : List SchemaNode) :
    Leq (parseInScope c r p n l) (parseInScope c r' p n l) := by
  unfold parseInScope
  exact Leq.bind (Leq.refl _) fun _ => Leq.bind (Leq.refl _) fun _ => Leq.bind (h.node _) fun _ => Leq.refl _

theorem leq_asSub {m m' : PR} (h : Leq m m') : Leq (asSub m) (asSub m') := by
  unfold asSub
  exact Leq.bind h fun _ => Leq.refl _

theorem leq_parseItems (h : RecLeq r r') (x : Option (ItemsData SchemaNode)) : Leq (parseItems c r x) (parseItems c r' x) := by
  unfold parseItems
  split
  · exact Leq.refl _
  · refine Leq.ite (Leq.refl _) ?_
    split
    · exact Leq.refl _
    · exact leq_asSub (leq_parseInScope h _ _ _)

theorem leq_parseOrFalse (h : RecLeq r r') (p : String) (x : Option (NodeOrFalse SchemaNode)) :
    Leq (parseOrFalse c r p x) (parseOrFalse c r' p x) := by
  unfold parseOrFalse
  split
  · exact Leq.refl _
  · split
    · exact Leq.refl _
    · exact leq_asSub (leq_parseInScope h _ _ _)

theorem leq_parseContains (h : RecLeq r r') (n : SchemaNode) : Leq (parseContains c r n) (parseContains c r' n) := by
  unfold parseContains
  split
  · exact Leq.refl _
  · refine Leq.bind ?_ fun _ => leq_asSub (leq_parseInScope h _ _ _)
    unfold mergedContains
    split
    · exact Leq.refl _
    · split
      · exact Leq.refl _
      · exact Leq.bind (leq_mergeNodes _ _ _ h.fuel) fun _ => Leq.refl _

theorem leq_parseTuple (h : RecLeq r r') : ∀ (l : List SchemaNode) (i : Nat), Leq (parseTuple c r i l) (parseTuple c r' i l) := by
  intro l
  induction l with
  | nil => intro i; exact Leq.refl _
  | cons x t ih =>
    intro i
    unfold parseTuple
    refine Leq.bind (leq_parseInScope h _ _ _) fun g => ?_
    split
    · exact Leq.refl _
    · exact Leq.bind (ih _) fun _ => Leq.refl _

theorem leq_parseArray (h : RecLeq r r') (n : SchemaNode) : Leq (parseArray c r n) (parseArray c r' n) := by
  unfold parseArray
  split
  · exact Leq.refl _
  · refine Leq.bind (leq_parseItems h _) fun a => ?_
    split
    · exact Leq.refl _
    · refine Leq.bind (leq_parseOrFalse h _ _) fun a => ?_
      split
      · exact Leq.refl _
      · refine Leq.bind (leq_parseContains h _) fun a => ?_
        split
        · exact Leq.refl _
        · refine Leq.bind (leq_parseTuple h _ _) fun a => ?_
          split
          · exact Leq.refl _
          · exact Leq.bind (leq_parseOrFalse h _ _) fun a => Leq.refl _

theorem leq_parseProps (h : RecLeq r r') : ∀ l : List (String × SchemaNode), Leq (parseProps c r l) (parseProps c r' l) := by
  intro l
  induction l with
  | nil => exact Leq.refl _
  | cons x t ih =>
    obtain ⟨k, n⟩ := x
    unfold parseProps
    exact Leq.bind (leq_parseInScope h _ _ _) fun _ => Leq.bind ih fun _ => Leq.refl _

theorem leq_parsePatProps (h : RecLeq r r') : ∀ l : List (String × SchemaNode),
    Leq (parsePatProps c r l) (parsePatProps c r' l) := by
  intro l
  induction l with
  | nil => exact Leq.refl _
  | cons x t ih =>
    obtain ⟨k, n⟩ := x
    unfold parsePatProps
    exact Leq.bind (leq_parseInScope h _ _ _) fun _ => Leq.bind (Leq.refl _) fun _ => Leq.bind ih fun _ => Leq.refl _

theorem leq_parseAddProps (h : RecLeq r r') (x : Option (NodeOrFalse SchemaNode)) :
    Leq (parseAddProps c r x) (parseAddProps c r' x) := by
  unfold parseAddProps
  split
  · exact Leq.refl _
  · refine Leq.ite (Leq.refl _) ?_
    split
    · exact Leq.refl _
    · exact Leq.bind (leq_parseInScope h _ _ _) fun _ => Leq.refl _

theorem leq_parseObject (h : RecLeq r r') (n : SchemaNode) : Leq (parseObject c r n) (parseObject c r' n) := by
  unfold parseObject
  split
  · exact Leq.refl _
  · exact Leq.bind (leq_parsePatProps h _) fun _ => Leq.bind (leq_parseProps h _) fun _ =>
      Leq.bind (leq_parseAddProps h _) fun _ => Leq.refl _

theorem leq_parseType (h : RecLeq r r') (t : String) (n : SchemaNode) : Leq (parseType c r t n) (parseType c r' t n) := by
  unfold parseType
  exact Leq.ite (leq_parseObject h _) (Leq.ite (leq_parseArray h _) (Leq.refl _))

theorem leq_parseTypes (h : RecLeq r r') (n : SchemaNode) : ∀ l : List String, Leq (parseTypes c r n l) (parseTypes c r' n l) := by
  intro l
  induction l with
  | nil => exact Leq.refl _
  | cons t ts ih =>
    unfold parseTypes
    exact Leq.bind (leq_parseType h _ _) fun _ => Leq.bind ih fun _ => Leq.refl _

theorem leq_parseByType (h : RecLeq r r') (n : SchemaNode) : Leq (parseByType c r n) (parseByType c r' n) := by
  have hm : ∀ n l, Leq (parseMultipleType c r n l) (parseMultipleType c r' n l) := by
    intro n l
    unfold parseMultipleType
    exact Leq.bind (leq_parseTypes h _ _) fun _ => Leq.refl _
  unfold parseByType
  split
  · exact hm _ _
  · exact Leq.ite (leq_parseType h _ _) (Leq.ite (hm _ _) (leq_parseType h _ _))

theorem leq_parseAllOf (h : RecLeq r r') (n : SchemaNode) (l : List SchemaNode) : Leq (parseAllOf c r n l) (parseAllOf c r' n l) := by
  unfold parseAllOf
  exact Leq.bind (leq_mergeNodes _ _ _ h.fuel) fun _ => Leq.bind (leq_parseInScope h _ _ _) fun _ => Leq.refl _

theorem leq_parseBranches (h : RecLeq r r') (n : SchemaNode) (b : Bool) : ∀ (l : List SchemaNode) (i : Nat),
    Leq (parseBranches c r n b i l) (parseBranches c r' n b i l) := by
  intro l
  induction l with
  | nil => intro i; exact Leq.refl _
  | cons x t ih =>
    intro i
    unfold parseBranches
    refine Leq.bind ?_ fun _ => Leq.bind (ih _) fun _ => Leq.refl _
    unfold parseBranch
    exact Leq.bind (leq_mergeNodes _ _ _ h.fuel) fun _ => Leq.bind (leq_mergeNodes _ _ _ h.fuel) fun _ =>
      Leq.bind (leq_parseInScope h _ _ _) fun _ => Leq.refl _

theorem leq_flattenAll {k k' : Nat} (hk : k ≤ k') : ∀ l : List SchemaNode, Leq (flattenAll c k l) (flattenAll c k' l) := by
  intro l
  induction l with
  | nil => exact Leq.refl _
  | cons x t ih =>
    unfold flattenAll
    exact Leq.bind (leq_mergeNodes _ _ _ hk) fun _ => Leq.bind ih fun _ => Leq.refl _

theorem leq_parseCombination (h : RecLeq r r') (n : SchemaNode) : Leq (parseCombination c r n) (parseCombination c r' n) := by
  unfold parseCombination
  refine Leq.bind (leq_parseBranches h _ _ _ _) fun _ => Leq.ite ?_ (Leq.refl _)
  exact Leq.bind (leq_flattenAll h.fuel _) fun _ => Leq.refl _

theorem leq_parseNot (h : RecLeq r r') (n : SchemaNode) : Leq (parseNot c r n) (parseNot c r' n) := by
  unfold parseNot
  refine Leq.bind (leq_partitionNots h.fuel _ _) fun _ => Leq.bind (Leq.ite (leq_mergeNodes _ _ _ h.fuel) (Leq.refl _)) fun _ => ?_
  exact Leq.ite (h.schema _) (Leq.bind (leq_mergeNodes _ _ _ h.fuel) fun _ => Leq.bind (leq_applyNots h.fuel _ _ _) fun _ =>
    Leq.bind (h.node _) fun _ => Leq.refl _)

theorem leq_parseIfBody (h : RecLeq r r') (p : String) (n : SchemaNode) (b : Option SchemaNode) :
    Leq (parseIfBody c r p n b) (parseIfBody c r' p n b) := by
  unfold parseIfBody
  split
  · exact Leq.refl _
  · exact Leq.bind (leq_mergeNodes _ _ _ h.fuel) fun _ => Leq.bind (leq_parseInScope h _ _ _) fun _ => Leq.refl _

theorem leq_compileIf (h : RecLeq r r') (n : SchemaNode) (i : Nat) (st : IfStmt SchemaNode) :
    Leq (compileIf c r n i st) (compileIf c r' n i st) := by
  unfold compileIf
  split
  · exact Leq.refl _
  · refine Leq.ite (Leq.refl _) (Leq.bind (Leq.refl _) fun _ => Leq.bind (Leq.refl _) fun v => ?_)
    split
    · exact Leq.refl _
    · exact Leq.bind (leq_parseIfBody h _ _ _) fun _ => Leq.bind (leq_parseIfBody h _ _ _) fun _ => Leq.refl _

theorem leq_compileIfs (h : RecLeq r r') (n : SchemaNode) : ∀ (l : List (IfStmt SchemaNode)) (i : Nat),
    Leq (compileIfs c r n i l) (compileIfs c r' n i l) := by
  intro l
  induction l with
  | nil => intro i; exact Leq.refl _
  | cons x t ih =>
    intro i
    unfold compileIfs
    refine Leq.bind (leq_compileIf h _ _ _) fun v => ?_
    split
    · exact Leq.bind (Leq.refl _) fun _ => ih _
    · exact Leq.bind (ih _) fun _ => Leq.refl _

theorem leq_parseIf (h : RecLeq r r') (n : SchemaNode) : Leq (parseIf c r n) (parseIf c r' n) := by
  unfold parseIf
  refine Leq.bind (Leq.refl _) fun _ => Leq.bind (h.schema _) fun g => ?_
  split
  · exact Leq.refl _
  · exact Leq.ite (Leq.refl _) (Leq.bind (leq_compileIfs h _ _ _) fun _ => Leq.refl _)

theorem leq_parseSchemaStep (h : RecLeq r r') (n : SchemaNode) : Leq (parseSchemaStep c r n) (parseSchemaStep c r' n) := by
  unfold parseSchemaStep
  split
  · exact Leq.refl _
  · split
    · exact Leq.refl _
    · split
      · exact leq_parseAllOf h _ _
      · refine Leq.ite (leq_parseCombination h _) (Leq.ite (leq_parseNot h _) (Leq.ite (leq_parseIf h _) ?_))
        split
        · exact Leq.refl _
        · split
          · exact Leq.refl _
          · exact leq_parseByType h _

theorem leq_parseNodeStep {f f' : SchemaNode → PR} (h : ∀ n, Leq (f n) (f' n)) (n : SchemaNode) :
    Leq (parseNodeStep c f n) (parseNodeStep c f' n) := by
  unfold parseNodeStep
  exact Leq.bind (Leq.refl _) fun _ => Leq.bind (Leq.refl _) fun _ => Leq.ite (Leq.refl _) (Leq.bind (h _) fun _ => Leq.refl _)

theorem leq_parseRec : ∀ k k' : Nat, k ≤ k' → RecLeq (parseRec c k) (parseRec c k') := by
  intro k
  induction k with
  | zero => intro k' _; exact ⟨fun _ => Leq.oom, fun _ => Leq.oom, Nat.zero_le _⟩
  | succ k ih =>
    intro k' hk
    obtain ⟨j, rfl⟩ : ∃ j, k' = j + 1 := ⟨k' - 1, by omega⟩
    have h := ih j (by omega)
    exact ⟨fun n => leq_parseNodeStep h.schema n, fun n => leq_parseSchemaStep h n, Nat.le_of_succ_le_succ hk⟩

theorem leq_parseDefs (h : RecLeq r r') (kw : String) : ∀ l : List (String × SchemaNode),
    Leq (parseDefs c r kw l) (parseDefs c r' kw l) := by
  intro l
  induction l with
  | nil => exact Leq.refl _
  | cons x t ih =>
    obtain ⟨k, n⟩ := x
    unfold parseDefs
    exact Leq.bind (leq_parseInScope h _ _ _) fun _ => ih

theorem leq_parseRoot (h : RecLeq r r') (n : SchemaNode) : Leq (parseRoot c r n) (parseRoot c r' n) := by
  unfold parseRoot
  exact Leq.bind (leq_parseDefs h _ _) fun _ => Leq.bind (leq_parseDefs h _ _) fun _ => h.node _

theorem leq_parseQueue (h : RecLeq r r') : ∀ k k' : Nat, k ≤ k' → Leq (parseQueue c r k) (parseQueue c r' k') := by
  intro k
  induction k with
  | zero => intro k' _; exact Leq.oom
  | succ k ih =>
    intro k' hk
    obtain ⟨j, rfl⟩ : ∃ j, k' = j + 1 := ⟨k' - 1, by omega⟩
    unfold parseQueue
    refine Leq.bind (Leq.refl _) fun q => ?_
    split
    · exact Leq.refl _
    · refine Leq.bind (Leq.refl _) fun _ => Leq.bind ?_ fun _ => Leq.bind (Leq.refl _) fun _ => ih _ (by omega)
      unfold parseDocument
      refine Leq.bind (Leq.refl _) fun _ => Leq.bind (Leq.refl _) fun d => ?_
      split
      · exact Leq.refl _
      · exact Leq.bind (Leq.refl _) fun _ => Leq.bind (leq_parseRoot h _) fun _ => Leq.refl _

theorem leq_parseBody {k k' : Nat} (hk : k ≤ k') (n : SchemaNode) : Leq (parseBody c k n) (parseBody c k' n) := by
  unfold parseBody
  have h := leq_parseRec (c := c) k k' hk
  exact Leq.bind (leq_parseRoot h _) fun _ => Leq.bind (leq_parseQueue h _ _ hk) fun _ => Leq.refl _

end
end Chaff
