import Verif.Lemmas.PDocs
/-!
# Every part of the parser keeps `Ev`
-/

namespace Chaff
open Comp

/-- Closes goals `Keeps c m` for programs built from known parts. -/
syntax "keeps" : tactic
macro_rules
  | `(tactic| keeps) => `(tactic|
    repeat' (first
      | exact Keeps.pure _
      | exact Keeps.fail _
      | exact Keeps.oom
      | exact Keeps.gets _
      | exact keeps_addErrorSub _ _ _
      | exact keeps_addError _ _
      | exact keeps_warnMerge _ _ _
      | exact keeps_warnField _ _ _
      | exact keeps_setResolving _ _
      | exact keeps_validatorFor _ _ _
      | exact keeps_resolveIdAndPath _ _
      | exact keeps_currentScope _
      | exact keeps_hasRes _ _ _
      | assumption
      | with_reducible refine Keeps.bind ?_ (fun _ => ?_)
      | split))

variable {c : PEnv}

/-! ## reference_path.go, document.go -/

theorem keeps_resolveSlice {sub : Option SchemaNode → List Char → P (Except Err SchemaNode)}
    (h : ∀ n p, Keeps c (sub n p)) (nodes : Option (List SchemaNode)) (path : List Char) :
    Keeps c (resolveSlice sub nodes path) := by
  unfold resolveSlice
  keeps
  exact h _ _

theorem keeps_resolveProperty {sub : Option SchemaNode → List Char → P (Except Err SchemaNode)}
    (h : ∀ n p, Keeps c (sub n p)) (nodes : Option (List (String × SchemaNode))) (path : List Char) :
    Keeps c (resolveProperty sub nodes path) := by
  unfold resolveProperty
  keeps
  exact h _ _

theorem keeps_resolveFalseOrSchema {sub : Option SchemaNode → List Char → P (Except Err SchemaNode)}
    (h : ∀ n p, Keeps c (sub n p)) (node : Option (NodeOrFalse SchemaNode)) (path : List Char) :
    Keeps c (resolveFalseOrSchema sub node path) := by
  unfold resolveFalseOrSchema
  keeps
  exact h _ _

theorem keeps_resolveItems {sub : Option SchemaNode → List Char → P (Except Err SchemaNode)}
    (h : ∀ n p, Keeps c (sub n p)) (node : Option (ItemsData SchemaNode)) (path : List Char) :
    Keeps c (resolveItems sub node path) := by
  unfold resolveItems
  keeps
  · exact h _ _
  · exact keeps_resolveSlice h _ _

theorem keeps_subPath (k : Nat) : ∀ n p, Keeps c (subPath k n p) := by
  induction k with
  | zero => intro n p; exact Keeps.oom
  | succ k ih =>
    intro n p
    cases n with
    | none => exact Keeps.pure _
    | some n =>
      unfold subPath
      have hp := fun a b => keeps_resolveProperty (c := c) (sub := subPath k) ih a b
      have hf := fun a b => keeps_resolveFalseOrSchema (c := c) (sub := subPath k) ih a b
      have hi := fun a b => keeps_resolveItems (c := c) (sub := subPath k) ih a b
      have hs := fun a b => keeps_resolveSlice (c := c) (sub := subPath k) ih a b
      dsimp only
      repeat' (first
        | exact Keeps.pure _
        | exact hp _ _
        | exact hf _ _
        | exact hi _ _
        | exact hs _ _
        | exact ih _ _
        | refine Keeps.ite ?_ ?_)

theorem keeps_resolveSub (n : Option SchemaNode) (p : String) : Keeps c (resolveSubReferencePath n p) :=
  keeps_subPath _ _ _

theorem keeps_rewriteRef (ref : String) : Keeps c (rewriteRef c ref) := by
  unfold rewriteRef
  keeps

mutual
theorem keeps_rewriteObj : ∀ l : List (String × JVal), Keeps c (rewriteObj c l)
  | [] => by unfold rewriteObj; exact Keeps.pure _
  | p :: t => by
    have h1 := keeps_rewriteMember p
    have h2 := keeps_rewriteObj t
    unfold rewriteObj
    keeps
termination_by structural l => l
theorem keeps_rewriteMember : ∀ p : String × JVal, Keeps c (rewriteMember c p)
  | (k, v) => by unfold rewriteMember; exact keeps_rewriteValue k v
termination_by structural p => p
theorem keeps_rewriteValue (k : String) : ∀ v : JVal, Keeps c (rewriteValue c k v)
  | .str s => by
    have h := keeps_rewriteRef (c := c) s
    unfold rewriteValue
    keeps
  | .obj m => by
    have h := keeps_rewriteObj m
    unfold rewriteValue
    keeps
  | .arr l => by
    have h := keeps_rewriteItems l
    unfold rewriteValue
    keeps
  | .null => by unfold rewriteValue; keeps
  | .bool _ => by unfold rewriteValue; keeps
  | .num _ => by unfold rewriteValue; keeps
termination_by structural v => v
theorem keeps_rewriteItems : ∀ l : List JVal, Keeps c (rewriteItems c l)
  | [] => by unfold rewriteItems; exact Keeps.pure _
  | v :: t => by
    have h1 := keeps_rewriteItem v
    have h2 := keeps_rewriteItems t
    unfold rewriteItems
    keeps
termination_by structural l => l
theorem keeps_rewriteItem : ∀ v : JVal, Keeps c (rewriteItem c v)
  | .obj m => by
    have h := keeps_rewriteObj m
    unfold rewriteItem
    keeps
  | .null => by unfold rewriteItem; keeps
  | .bool _ => by unfold rewriteItem; keeps
  | .num _ => by unfold rewriteItem; keeps
  | .str _ => by unfold rewriteItem; keeps
  | .arr _ => by unfold rewriteItem; keeps
termination_by structural v => v
end

theorem keeps_rewriteReferences (n : SchemaNode) : Keeps c (rewriteReferences c n) := by
  have h := keeps_rewriteItem (c := c) (encodeNode n)
  unfold rewriteReferences
  keeps

/-! ## merge.go -/

theorem keeps_mergeEnumAndConst (m n : SchemaNode) : Keeps c (mergeEnumAndConst m n) := by
  unfold mergeEnumAndConst
  keeps

theorem keeps_mergeMapLoop {rec : MergeRec} (h : ∀ l, Keeps c (rec l)) : ∀ (t merged : List (String × SchemaNode)),
    Keeps c (mergeMapLoop rec merged t) := by
  intro t
  induction t with
  | nil => intro m; unfold mergeMapLoop; exact Keeps.pure _
  | cons x t ih =>
    obtain ⟨k, v⟩ := x
    intro m
    unfold mergeMapLoop
    split
    · exact Keeps.bind (h _) fun _ => ih _
    · exact ih _

theorem keeps_mergeMap {rec : MergeRec} (h : ∀ l, Keeps c (rec l)) (a b : Option (List (String × SchemaNode))) :
    Keeps c (mergeMap rec a b) := by
  unfold mergeMap
  keeps
  exact keeps_mergeMapLoop h _ _

theorem keeps_mergeZip {rec : MergeRec} (h : ∀ l, Keeps c (rec l)) : ∀ (a b : List SchemaNode),
    Keeps c (mergeZip rec a b) := by
  intro a
  induction a with
  | nil => intro b; unfold mergeZip; exact Keeps.pure _
  | cons x t ih =>
    intro b
    cases b with
    | nil => unfold mergeZip; exact Keeps.pure _
    | cons y u =>
      unfold mergeZip
      exact Keeps.bind (h _) fun _ => Keeps.bind (ih _) fun _ => Keeps.pure _

theorem keeps_mergePrefixItems {rec : MergeRec} (h : ∀ l, Keeps c (rec l)) (a b : Option (List SchemaNode)) :
    Keeps c (mergePrefixItems rec a b) := by
  unfold mergePrefixItems
  keeps
  exact keeps_mergeZip h _ _

theorem keeps_mergeItems {rec : MergeRec} (h : ∀ l, Keeps c (rec l)) (a b : Option (ItemsData SchemaNode)) :
    Keeps c (mergeItems rec a b) := by
  unfold mergeItems
  dsimp only
  keeps
  exact h _

theorem keeps_mergeNodeOrFalse {rec : MergeRec} (h : ∀ l, Keeps c (rec l)) (a b : Option (NodeOrFalse SchemaNode)) :
    Keeps c (mergeNodeOrFalse rec a b) := by
  unfold mergeNodeOrFalse
  keeps
  exact h _

theorem keeps_mergePtrs {rec : MergeRec} (h : ∀ l, Keeps c (rec l)) (a b : Option SchemaNode) :
    Keeps c (mergePtrs rec a b) := by
  unfold mergePtrs
  keeps
  exact h _

theorem keeps_warnIfDifferent {α : Type} [DecidableEq α] (f : String) (a b : Option α) :
    Keeps c (warnIfDifferent f a b) := by
  unfold warnIfDifferent
  keeps

theorem keeps_warnSimple (m n : SchemaNode) : Keeps c (warnSimple m n) := by
  unfold warnSimple
  exact Keeps.bind (keeps_warnIfDifferent _ _ _) fun _ => Keeps.bind (keeps_warnIfDifferent _ _ _) fun _ =>
    Keeps.bind (keeps_warnIfDifferent _ _ _) fun _ => keeps_warnIfDifferent _ _ _

theorem keeps_resolveRefLoop : ∀ (k : Nat) (l : List String) (n : SchemaNode), Keeps c (resolveRefLoop c k l n) := by
  intro k
  induction k with
  | zero => intro l n; exact Keeps.oom
  | succ k ih =>
    intro l n
    unfold resolveRefLoop
    split
    · exact Keeps.pure _
    · refine Keeps.bind (keeps_resolvePath c _ keeps_resolveSub) fun r => ?_
      split
      · keeps
      · split
        · keeps
        · exact ih _ _

theorem keeps_mergeResolveReference (k : Nat) (n : SchemaNode) : Keeps c (mergeResolveReference c k n) := by
  unfold mergeResolveReference
  refine Keeps.bind ?_ fun _ => by keeps
  unfold resolveRefBody
  refine Keeps.bind (keeps_resolveRefLoop _ _ _) fun r => ?_
  split
  · exact Keeps.pure _
  · refine Keeps.bind (keeps_rewriteReferences _) fun r => ?_
    keeps

/-- Resolving the reference of a node pushes at most one resolution, and says so. -/
theorem mergeResolveNodeRef_ev {k : Nat} {n : SchemaNode} {s s' : PSt} {p : SchemaNode × Bool}
    (h : mergeResolveNodeRef c k n s = .ok p s') :
    (p.2 = false ∧ Ev c s s') ∨
    (p.2 = true ∧ ∃ key, s'.resolutions = key :: s.resolutions ∧ Ev c s { s' with resolutions := s.resolutions }) := by
  unfold mergeResolveNodeRef at h
  cases hr : n.ref with
  | none =>
    rw [hr] at h
    obtain ⟨rfl, rfl⟩ := pure_ok.1 h
    exact Or.inl ⟨rfl, Ev.refl c s⟩
  | some ref =>
    rw [hr] at h
    obtain ⟨r, s1, h1, h2⟩ := bind_ok.1 h
    have E1 := keeps_resolveIdAndPath c _ _ _ _ h1
    split at h2
    · obtain ⟨_, s2, h3, h4⟩ := bind_ok.1 h2
      obtain ⟨rfl, rfl⟩ := pure_ok.1 h4
      exact Or.inl ⟨rfl, E1.trans (keeps_warnMerge c _ _ _ _ _ h3)⟩
    · rename_i doc path
      obtain ⟨b, s2, h3, h4⟩ := bind_ok.1 h2
      have E2 := E1.trans (keeps_hasRes c _ _ _ _ _ h3)
      split at h4
      · obtain ⟨rfl, rfl⟩ := pure_ok.1 h4
        exact Or.inl ⟨rfl, E2⟩
      · obtain ⟨r', s3, h5, h6⟩ := bind_ok.1 h4
        have E3 := E2.trans (keeps_mergeResolveReference _ _ _ _ _ h5)
        split at h6
        · obtain ⟨_, s4, h7, h8⟩ := bind_ok.1 h6
          obtain ⟨rfl, rfl⟩ := pure_ok.1 h8
          exact Or.inl ⟨rfl, E3.trans (keeps_warnMerge c _ _ _ _ _ h7)⟩
        · obtain ⟨_, s4, h7, h8⟩ := bind_ok.1 h6
          obtain ⟨rfl, rfl⟩ := pure_ok.1 h8
          unfold pushRes at h7
          rw [modS_apply] at h7
          injection h7 with _ h7
          subst h7
          refine Or.inr ⟨rfl, resKey doc path, ?_, ?_⟩
          · show _ :: s3.resolutions = _ :: s.resolutions
            rw [E3.res]
          · have : ({ s3 with resolutions := s.resolutions } : PSt) = s3 := by
              rw [← E3.res]
            rw [this]
            exact E3

theorem keeps_mergeSubs {rec : MergeRec} (h : ∀ l, Keeps c (rec l)) (m n : SchemaNode) :
    Keeps c (mergeSubs rec m n) := by
  unfold mergeSubs
  refine Keeps.bind (keeps_mergeMap h _ _) fun _ => ?_
  refine Keeps.bind (keeps_mergeNodeOrFalse h _ _) fun _ => ?_
  refine Keeps.bind (keeps_mergeMap h _ _) fun _ => ?_
  refine Keeps.bind (keeps_mergePrefixItems h _ _) fun _ => ?_
  refine Keeps.bind (keeps_mergeItems h _ _) fun _ => ?_
  refine Keeps.bind (keeps_mergeNodeOrFalse h _ _) fun _ => ?_
  refine Keeps.bind (keeps_mergeNodeOrFalse h _ _) fun _ => ?_
  refine Keeps.bind (keeps_mergePtrs h _ _) fun _ => ?_
  exact Keeps.pure _

theorem keeps_mergeFields {F : FP} {rec : MergeRec} (h : ∀ l, Keeps c (rec l)) (m n : SchemaNode) :
    Keeps c (mergeFields F rec m n) := by
  unfold mergeFields
  refine Keeps.bind (keeps_mergeEnumAndConst _ _) fun _ => ?_
  refine Keeps.bind (keeps_mergeSubs h _ _) fun _ => ?_
  refine Keeps.bind (Keeps.gets _) fun _ => ?_
  exact Keeps.bind (keeps_warnSimple _ _) fun _ => Keeps.pure _

theorem keeps_flattenResolved {rec : MergeRec} (h : ∀ l, Keeps c (rec l)) (n : SchemaNode) (b : Bool) :
    Keeps c (flattenResolved rec n b) := by
  unfold flattenResolved
  keeps
  exact h _

/-- Evolving with one resolution pushed, then popping it. -/
theorem Ev.popAfter {s s1 s2 : PSt} {key : String} (hr : s1.resolutions = key :: s.resolutions)
    (E : Ev c s { s1 with resolutions := s.resolutions }) (E2 : Ev c s1 s2) :
    s2.resolutions = key :: s.resolutions ∧ Ev c s { s2 with resolutions := s.resolutions } := by
  have e : s1 = { ({ s1 with resolutions := s.resolutions } : PSt) with resolutions := key :: s.resolutions } := by
    rw [← hr]
  rw [e] at E2
  obtain ⟨h1, h2⟩ := Ev.resPush (s := { s1 with resolutions := s.resolutions }) E2
  exact ⟨h1, E.trans h2⟩

theorem keeps_mergeOne {k : Nat} {rec : MergeRec} (h : ∀ l, Keeps c (rec l)) (m n : SchemaNode) :
    Keeps c (mergeOne c k rec m n) := by
  intro s a s' h0
  unfold mergeOne at h0
  obtain ⟨p, s1, h1, h2⟩ := bind_ok.1 h0
  obtain ⟨x, s2, h3, h4⟩ := bind_ok.1 h2
  obtain ⟨y, s3, h5, h6⟩ := bind_ok.1 h4
  obtain ⟨_, s4, h7, h8⟩ := bind_ok.1 h6
  obtain ⟨rfl, rfl⟩ := pure_ok.1 h8
  have E23 := (keeps_flattenResolved h _ _ _ _ _ h3).trans (keeps_mergeFields h _ _ _ _ _ h5)
  rcases mergeResolveNodeRef_ev h1 with ⟨hb, E1⟩ | ⟨hb, key, hr, E1⟩
  · rw [hb] at h7
    unfold leaveRef at h7
    exact (E1.trans E23).trans (Keeps.pure _ _ _ _ h7)
  · rw [hb] at h7
    obtain ⟨hr', E⟩ := Ev.popAfter hr E1 E23
    unfold leaveRef at h7
    simp only [if_true] at h7
    obtain ⟨_, s5, h9, h10⟩ := bind_ok.1 h7
    unfold popRes at h9
    rw [hr'] at h9
    injection h9 with _ h9
    subst h9
    refine E.trans ?_
    exact Keeps.bind (Keeps.gets _) (fun _ => keeps_setResolving c _) _ _ _ h10

theorem keeps_mergeLoop {k : Nat} {rec : MergeRec} (h : ∀ l, Keeps c (rec l)) : ∀ (l : List SchemaNode) (m : SchemaNode),
    Keeps c (mergeLoop c k rec m l) := by
  intro l
  induction l with
  | nil => intro m; unfold mergeLoop; exact Keeps.pure _
  | cons x t ih => intro m; unfold mergeLoop; exact Keeps.bind (keeps_mergeOne h _ _) fun _ => ih _

/-- Running something one level deeper. -/
theorem keeps_level {α : Type} {m : P α} (h : Keeps c m) {β : Type} {f : α → P β} (hf : ∀ a, Keeps c (f a)) :
    Keeps c (do
      Comp.modS (fun s : PSt => { s with depth := s.depth + 1 })
      let a ← m
      Comp.modS (fun s : PSt => { s with depth := s.depth - 1 })
      f a) := by
  intro s b s' h0
  obtain ⟨_, s1, h1, h2⟩ := bind_ok.1 h0
  rw [modS_apply] at h1
  injection h1 with _ h1
  subst h1
  obtain ⟨a, s2, h3, h4⟩ := bind_ok.1 h2
  obtain ⟨_, s3, h5, h6⟩ := bind_ok.1 h4
  rw [modS_apply] at h5
  injection h5 with _ h5
  subst h5
  exact (Ev.level (h _ _ _ h3)).trans (hf _ _ _ _ h6)

theorem keeps_flattenResidual {rec : MergeRec} (h : ∀ l, Keeps c (rec l)) : ∀ (k : Nat) (m : SchemaNode),
    Keeps c (flattenResidual c rec k m) := by
  intro k
  induction k with
  | zero => intro m; exact Keeps.oom
  | succ k ih =>
    intro m
    unfold flattenResidual
    split
    · exact Keeps.pure _
    · split
      · exact Keeps.pure _
      · refine Keeps.bind (Keeps.gets _) fun d => ?_
        split
        · exact Keeps.pure _
        · exact keeps_level (h _) fun _ => ih _

theorem keeps_mergeNodes : ∀ (k : Nat) (l : List SchemaNode), Keeps c (mergeNodes c k l) := by
  intro k
  induction k with
  | zero => intro l; exact Keeps.oom
  | succ k ih =>
    intro l
    unfold mergeNodes mergeStep
    exact Keeps.bind (keeps_mergeLoop ih _ _) fun _ => keeps_flattenResidual ih _ _

/-! ## not.go -/

theorem keeps_boundsInt (f : String) (a b x y : Option Int) : Keeps c (boundsInt f a b x y) := by
  unfold boundsInt
  dsimp only
  keeps

theorem keeps_notApplyString (a b n : SchemaNode) (cc : ConstraintColl) : Keeps c (notApplyString c a b n cc) := by
  unfold notApplyString
  refine Keeps.bind (keeps_boundsInt _ _ _ _ _) fun _ => ?_
  dsimp only
  keeps

theorem keeps_setMultiples (l : List Rat) (n : SchemaNode) : Keeps c (setMultiples l n) := by
  unfold setMultiples
  dsimp only
  keeps

theorem keeps_applyMultiples {F : FP} (b : FloatBounds) (x y : Rat) (a n : SchemaNode) :
    Keeps c (applyMultiples F b x y a n) := by
  unfold applyMultiples
  keeps
  exact keeps_setMultiples _ _

theorem keeps_notApplyNumber {F : FP} (a b n : SchemaNode) : Keeps c (notApplyNumber F a b n) := by
  unfold notApplyNumber
  dsimp only
  have := fun (x : FloatBounds) (y z : Rat) (u v : SchemaNode) => keeps_applyMultiples (c := c) (F := F) x y z u v
  split
  · exact Keeps.bind (keeps_warnField c _ _) fun _ => this _ _ _ _ _
  · exact this _ _ _ _ _

theorem keeps_notEnumRest (a b n : SchemaNode) : Keeps c (notEnumRest a b n) := by
  unfold notEnumRest
  dsimp only
  keeps

theorem keeps_notApplyEnum (a b n : SchemaNode) (cc : ConstraintColl) : Keeps c (notApplyEnum a b n cc) := by
  have h := keeps_notEnumRest (c := c) a b n
  unfold notApplyEnum
  dsimp only
  keeps

theorem keeps_notApplyConst (a b n : SchemaNode) (cc : ConstraintColl) : Keeps c (notApplyConst a b n cc) := by
  unfold notApplyConst
  dsimp only
  keeps

theorem keeps_notSubNode {rec : NotRec} (h : ∀ a b, Keeps c (rec a b)) (scope : String) (a b : SchemaNode) :
    Keeps c (notSubNode rec scope a b) := by
  have : notSubNode rec scope a b = (do
      let r ← (do pushPath scope; let r ← rec a b; popPath scope; pure r)
      let cc := match a.constraints with
        | some x => r.2.merge x
        | none => r.2
      pure { r.1 with constraints := some cc }) := by
    unfold notSubNode
    funext s
    simp only [Comp.bind_apply]
    cases pushPath scope s with
    | ok u s1 =>
      dsimp only
      cases rec a b s1 with
      | ok r s2 =>
        dsimp only
        cases popPath scope s2 with
        | ok u s3 => rfl
        | panic e => rfl
        | oom => rfl
      | panic e => rfl
      | oom => rfl
    | panic e => rfl
    | oom => rfl
  rw [this]
  exact Keeps.bind (keeps_scope (h _ _)) fun _ => Keeps.pure _

theorem keeps_notSubPtr {rec : NotRec} (h : ∀ a b, Keeps c (rec a b)) (scope : String) (a b : Option SchemaNode) :
    Keeps c (notSubPtr rec scope a b) := by
  unfold notSubPtr
  keeps
  exact keeps_notSubNode h _ _ _

theorem keeps_notItems {rec : NotRec} (h : ∀ a b, Keeps c (rec a b)) (a b : Option (ItemsData SchemaNode)) :
    Keeps c (notItems rec a b) := by
  unfold notItems
  dsimp only
  keeps
  all_goals exact keeps_notSubNode h _ _ _

theorem keeps_notOrFalse {rec : NotRec} (h : ∀ a b, Keeps c (rec a b)) (scope : String)
    (a b : Option (NodeOrFalse SchemaNode)) : Keeps c (notOrFalse rec scope a b) := by
  unfold notOrFalse
  dsimp only
  keeps
  all_goals exact keeps_notSubNode h _ _ _

theorem keeps_notPrefixLoop {rec : NotRec} (h : ∀ a b, Keeps c (rec a b)) (l nl : List SchemaNode) (e : SchemaNode) :
    ∀ k i, Keeps c (notPrefixLoop rec l nl e k i) := by
  intro k
  induction k with
  | zero => intro i; unfold notPrefixLoop; exact Keeps.pure _
  | succ k ih =>
    intro i
    unfold notPrefixLoop
    exact Keeps.bind (keeps_notSubNode h _ _ _) fun _ => Keeps.bind (ih _) fun _ => Keeps.pure _

theorem keeps_notPrefix {rec : NotRec} (h : ∀ a b, Keeps c (rec a b)) (a b : Option (List SchemaNode))
    (i : Option (ItemsData SchemaNode)) : Keeps c (notPrefix rec a b i) := by
  unfold notPrefix
  dsimp only
  keeps
  exact keeps_notPrefixLoop h _ _ _ _ _

theorem keeps_resolveBool (a b : Option Bool) : Keeps c (resolveBool a b) := by
  unfold resolveBool
  keeps

theorem keeps_limitContains (n : SchemaNode) : Keeps c (limitContains n) := by
  unfold limitContains
  keeps

theorem keeps_notApplyArray {rec : NotRec} (h : ∀ a b, Keeps c (rec a b)) (a b n : SchemaNode) :
    Keeps c (notApplyArray rec a b n) := by
  unfold notApplyArray
  refine Keeps.bind (keeps_boundsInt _ _ _ _ _) fun _ => ?_
  refine Keeps.bind (keeps_boundsInt _ _ _ _ _) fun _ => ?_
  refine Keeps.bind (keeps_limitContains _) fun _ => ?_
  refine Keeps.bind (keeps_notItems h _ _) fun items => ?_
  have tail : ∀ n1 : SchemaNode, Keeps c (do
      let uniqueItems ← resolveBool a.uniqueItems b.uniqueItems
      let prefixItems ← notPrefix rec a.prefixItems b.prefixItems items
      let unevaluatedItems ← notOrFalse rec "/not/unevaluatedItems" a.unevaluatedItems b.unevaluatedItems
      let contains ← notSubPtr rec "/not/contains" a.contains b.contains
      pure { n1 with
        items := items
        uniqueItems := uniqueItems
        prefixItems := prefixItems
        unevaluatedItems := unevaluatedItems
        contains := contains }) := by
    intro n1
    refine Keeps.bind (keeps_resolveBool _ _) fun _ => ?_
    refine Keeps.bind (keeps_notPrefix h _ _ _) fun _ => ?_
    refine Keeps.bind (keeps_notOrFalse h _ _ _) fun _ => ?_
    refine Keeps.bind (keeps_notSubPtr h _ _ _) fun _ => ?_
    exact Keeps.pure _
  split
  · exact Keeps.bind (keeps_warnField c _ _) fun _ => tail _
  · exact tail _

theorem keeps_notPropsLoop {rec : NotRec} (h : ∀ a b, Keeps c (rec a b)) (p np : List (String × SchemaNode)) :
    ∀ ks acc, Keeps c (notPropsLoop rec p np ks acc) := by
  intro ks
  induction ks with
  | nil => intro acc; unfold notPropsLoop; exact Keeps.pure _
  | cons k t ih =>
    intro acc
    unfold notPropsLoop
    split
    · split
      · exact ih _
      · exact ih _
    · exact Keeps.bind (keeps_notSubNode h _ _ _) fun _ => ih _

theorem keeps_warnUnsupported (f : String) (b : Bool) : Keeps c (warnUnsupported f b) := by
  unfold warnUnsupported
  keeps

theorem keeps_notApplyObject {rec : NotRec} (h : ∀ a b, Keeps c (rec a b)) (a b n : SchemaNode) (cc : ConstraintColl) :
    Keeps c (notApplyObject rec a b n cc) := by
  unfold notApplyObject
  refine Keeps.bind (keeps_boundsInt _ _ _ _ _) fun _ => ?_
  refine Keeps.bind (keeps_notPropsLoop h _ _ _ _) fun _ => ?_
  refine Keeps.bind (keeps_warnUnsupported _ _) fun _ => ?_
  refine Keeps.bind (keeps_notOrFalse h _ _ _) fun _ => ?_
  exact Keeps.pure _

theorem keeps_notUnsupported (n : SchemaNode) : Keeps c (notUnsupported n) := by
  unfold notUnsupported
  have h := fun f b => keeps_warnUnsupported (c := c) f b
  exact Keeps.bind (h _ _) fun _ => Keeps.bind (h _ _) fun _ => Keeps.bind (h _ _) fun _ => Keeps.bind (h _ _) fun _ =>
    Keeps.bind (h _ _) fun _ => Keeps.bind (h _ _) fun _ => Keeps.bind (h _ _) fun _ => h _ _

theorem keeps_notMerge : ∀ (k : Nat) (a b : SchemaNode), Keeps c (notMerge c k a b) := by
  intro k
  induction k with
  | zero => intro a b; exact Keeps.oom
  | succ k ih =>
    intro a b
    unfold notMerge notStep
    split
    · keeps
    · refine Keeps.bind (keeps_notApplyString _ _ _ _) fun _ => ?_
      refine Keeps.bind (keeps_notApplyNumber _ _ _) fun _ => ?_
      refine Keeps.bind (keeps_notApplyEnum _ _ _ _) fun _ => ?_
      refine Keeps.bind (keeps_notApplyConst _ _ _ _) fun _ => ?_
      refine Keeps.bind (keeps_notApplyArray ih _ _ _) fun _ => ?_
      refine Keeps.bind (keeps_notApplyObject ih _ _ _ _) fun _ => ?_
      exact Keeps.bind (keeps_notUnsupported _) fun _ => Keeps.pure _

theorem keeps_applyNots (k : Nat) : ∀ (l : List SchemaNode) (n : SchemaNode) (cc : ConstraintColl),
    Keeps c (applyNots c k n cc l) := by
  intro l
  induction l with
  | nil => intro n cc; unfold applyNots; exact Keeps.pure _
  | cons x t ih => intro n cc; unfold applyNots; exact Keeps.bind (keeps_notMerge _ _ _) fun _ => ih _ _

/-- A scope followed by more work. -/
theorem keeps_scopeThen {α β : Type} {part : String} {m : P α} (hm : Keeps c m) {f : α → P β}
    (hf : ∀ a, Keeps c (f a)) : Keeps c (do pushPath part; let a ← m; popPath part; f a) := by
  have : (do pushPath part; let a ← m; popPath part; f a : P β) =
      (do let a ← (do pushPath part; let a ← m; popPath part; pure a); f a) := by
    funext s
    simp only [Comp.bind_apply]
    cases pushPath part s with
    | ok u s1 =>
      dsimp only
      cases m s1 with
      | ok r s2 =>
        dsimp only
        cases popPath part s2 with
        | ok u s3 => rfl
        | panic e => rfl
        | oom => rfl
      | panic e => rfl
      | oom => rfl
    | panic e => rfl
    | oom => rfl
  rw [this]
  exact Keeps.bind (keeps_scope hm) hf

theorem keeps_partitionNots (k : Nat) : ∀ (l : List SchemaNode) (i : Nat), Keeps c (partitionNots c k i l) := by
  intro l
  induction l with
  | nil => intro i; unfold partitionNots; exact Keeps.pure _
  | cons x t ih =>
    intro i
    unfold partitionNots
    refine keeps_scopeThen (keeps_mergeNodes _ _) fun flat => ?_
    split
    · refine keeps_scopeThen (keeps_mergeNodes _ _) fun _ => ?_
      exact Keeps.bind (ih _) fun _ => Keeps.pure _
    · exact Keeps.bind (ih _) fun _ => Keeps.pure _

/-! ## parse.go -/

/-- The recursive calls evolve the state properly. -/
structure KeepsRec (c : PEnv) (r : PRec) : Prop where
  node : ∀ n, Keeps c (r.node n)
  schema : ∀ n, Keeps c (r.schema n)

theorem keeps_okGen (g : Gen) : Keeps c (okGen g) := Keeps.pure _
theorem keeps_nullErr (e : Err) : Keeps c (nullErr e) := Keeps.pure _

theorem pushSources_ev {scope : String} : ∀ (l : List SchemaNode) {s s' : PSt} {k : Nat},
    pushSources c scope l s = .ok k s' →
    ∃ keys : List String, keys.length = k ∧ s'.resolutions = keys ++ s.resolutions ∧
      Ev c s { s' with resolutions := s.resolutions } := by
  intro l
  induction l with
  | nil =>
    intro s s' k h
    unfold pushSources at h
    obtain ⟨rfl, rfl⟩ := pure_ok.1 h
    exact ⟨[], rfl, rfl, Ev.refl c s⟩
  | cons x t ih =>
    intro s s' k h
    unfold pushSources at h
    cases hr : x.ref with
    | none =>
      rw [hr] at h
      exact ih h
    | some ref =>
      rw [hr] at h
      obtain ⟨r, s1, h1, h2⟩ := bind_ok.1 h
      have E1 := keeps_resolveIdAndPath c _ _ _ _ h1
      cases r with
      | error e =>
        obtain ⟨_, s2, h3, h4⟩ := bind_ok.1 h2
        have E2 := E1.trans (keeps_addErrorSub c _ _ _ _ _ h3)
        obtain ⟨keys, hk, hs, E⟩ := ih h4
        refine ⟨keys, hk, by rw [hs, E2.res], ?_⟩
        rw [E2.res] at E
        exact E2.trans E
      | ok p =>
        obtain ⟨_, s2, h3, h4⟩ := bind_ok.1 h2
        obtain ⟨k', s3, h5, h6⟩ := bind_ok.1 h4
        obtain ⟨rfl, rfl⟩ := pure_ok.1 h6
        unfold pushRes at h3
        rw [modS_apply] at h3
        injection h3 with _ h3
        obtain ⟨keys, hk, hs, E⟩ := ih h5
        have hres : s2.resolutions = resKey p.1 p.2 :: s.resolutions := by
          rw [← h3]
          show _ :: s1.resolutions = _
          rw [E1.res]
        refine ⟨keys ++ [resKey p.1 p.2], by simp [hk], by rw [hs, hres]; simp, ?_⟩
        rw [hres] at E
        have E' : Ev c s1 { s3 with resolutions := s1.resolutions } := by
          have hE : Ev c { s1 with resolutions := resKey p.1 p.2 :: s1.resolutions }
              { s3 with resolutions := resKey p.1 p.2 :: s.resolutions } := by
            rw [h3]; exact E
          exact (Ev.resPush hE).2
        rw [E1.res] at E'
        exact E1.trans E'

theorem popSources_ok : ∀ (k : Nat) (keys rest : List String) {s s' : PSt} {u : Unit}, keys.length = k →
    s.resolutions = keys ++ rest → popSources k s = .ok u s' → s' = { s with resolutions := rest } := by
  intro k
  induction k with
  | zero =>
    intro keys rest s s' u hk hs h
    unfold popSources at h
    obtain ⟨_, rfl⟩ := pure_ok.1 h
    have : keys = [] := List.length_eq_zero_iff.1 hk
    subst this
    rw [List.nil_append] at hs
    rw [← hs]
  | succ k ih =>
    intro keys rest s s' u hk hs h
    unfold popSources at h
    obtain ⟨_, s1, h1, h2⟩ := bind_ok.1 h
    cases keys with
    | nil => simp at hk
    | cons x t =>
      unfold popRes at h1
      rw [hs] at h1
      injection h1 with _ h1
      have := ih t rest (by simpa using hk) (by rw [← h1]; rfl) h2
      rw [this, ← h1]

theorem keeps_withSources {α : Type} {scope : String} {l : List SchemaNode} {m : P α} (hm : Keeps c m) :
    Keeps c (do
      let n ← pushSources c scope l
      let g ← m
      popSources n
      pure g) := by
  intro s a s' h
  obtain ⟨k, s1, h1, h2⟩ := bind_ok.1 h
  obtain ⟨g, s2, h3, h4⟩ := bind_ok.1 h2
  obtain ⟨_, s3, h5, h6⟩ := bind_ok.1 h4
  obtain ⟨rfl, rfl⟩ := pure_ok.1 h6
  obtain ⟨keys, hk, hs, E⟩ := pushSources_ev l h1
  have E2 := hm _ _ _ h3
  have := popSources_ok k keys s.resolutions hk (by rw [E2.res, hs]) h5
  subst this
  -- move the extra resolutions out of the way
  have E3 : Ev c { s1 with resolutions := s.resolutions } { s2 with resolutions := s.resolutions } :=
    { path := E2.path
      depth := E2.depth
      res := rfl
      parsing := E2.parsing
      http := E2.http
      file := E2.file
      parsedDocs := E2.parsedDocs
      errors := E2.errors
      refs := E2.refs
      docs := E2.docs
      aliases := E2.aliases
      queue := E2.queue
      resources := E2.resources
      inv := E2.inv
      parsed := E2.parsed
      queueOk := E2.queueOk
      fetches := E2.fetches }
  exact E.trans E3

theorem keeps_parseInScope {r : PRec} (h : KeepsRec c r) (scope : String) (n : SchemaNode) (src : List SchemaNode) :
    Keeps c (parseInScope c r scope n src) := by
  have : parseInScope c r scope n src = (do
      pushPath scope
      let g ← (do
        let n' ← pushSources c scope src
        let g ← r.node n
        popSources n'
        pure g)
      popPath scope
      pure g) := by
    unfold parseInScope
    funext s
    simp only [Comp.bind_apply]
    cases pushPath scope s with
    | ok u s1 =>
      dsimp only
      cases pushSources c scope src s1 with
      | ok k s2 =>
        dsimp only
        cases r.node n s2 with
        | ok g s3 =>
          dsimp only
          cases popSources k s3 with
          | ok u s4 => rfl
          | panic e => rfl
          | oom => rfl
        | panic e => rfl
        | oom => rfl
      | panic e => rfl
      | oom => rfl
    | panic e => rfl
    | oom => rfl
  rw [this]
  exact keeps_scope (keeps_withSources (h.node n))

theorem keeps_buildRegex (a : RxArgs) (p : String) : Keeps c (buildRegex c a p) := by
  unfold buildRegex
  keeps

theorem keeps_parseString (n : SchemaNode) : Keeps c (parseString c n) := by
  unfold parseString
  dsimp only
  split
  · exact keeps_nullErr _
  · split
    · exact keeps_okGen _
    · refine Keeps.bind (keeps_buildRegex _ _) fun r => ?_
      split
      · exact keeps_nullErr _
      · exact keeps_okGen _

theorem keeps_parseNumberNode (n : SchemaNode) (b : Bool) : Keeps c (parseNumberNode c n b) := by
  unfold parseNumberNode
  split
  · exact Keeps.pure _
  · exact keeps_okGen _

theorem keeps_asSub {m : PR} (h : Keeps c m) : Keeps c (asSub m) := by
  unfold asSub
  keeps

theorem keeps_parseItems {r : PRec} (h : KeepsRec c r) (x : Option (ItemsData SchemaNode)) :
    Keeps c (parseItems c r x) := by
  unfold parseItems
  keeps
  exact keeps_asSub (keeps_parseInScope h _ _ _)

theorem keeps_parseOrFalse {r : PRec} (h : KeepsRec c r) (scope : String) (x : Option (NodeOrFalse SchemaNode)) :
    Keeps c (parseOrFalse c r scope x) := by
  unfold parseOrFalse
  keeps
  exact keeps_asSub (keeps_parseInScope h _ _ _)

theorem keeps_mergedContains (k : Nat) (x : Option (ItemsData SchemaNode)) (n : SchemaNode) :
    Keeps c (mergedContains c k x n) := by
  unfold mergedContains
  keeps
  exact keeps_mergeNodes _ _

theorem keeps_parseContains {r : PRec} (h : KeepsRec c r) (n : SchemaNode) : Keeps c (parseContains c r n) := by
  unfold parseContains
  keeps
  · exact keeps_mergedContains _ _ _
  · exact keeps_asSub (keeps_parseInScope h _ _ _)

theorem keeps_parseTuple {r : PRec} (h : KeepsRec c r) : ∀ (l : List SchemaNode) (i : Nat),
    Keeps c (parseTuple c r i l) := by
  intro l
  induction l with
  | nil => intro i; unfold parseTuple; exact Keeps.pure _
  | cons x t ih =>
    intro i
    unfold parseTuple
    refine Keeps.bind (keeps_parseInScope h _ _ _) fun g => ?_
    split
    · exact Keeps.pure _
    · refine Keeps.bind (ih _) fun _ => ?_
      keeps

theorem keeps_parseArray {r : PRec} (h : KeepsRec c r) (n : SchemaNode) : Keeps c (parseArray c r n) := by
  unfold parseArray
  split
  · exact keeps_nullErr _
  · refine Keeps.bind (keeps_parseItems h _) fun _ => ?_
    split
    · exact keeps_nullErr _
    · refine Keeps.bind (keeps_parseOrFalse h _ _) fun _ => ?_
      split
      · exact keeps_nullErr _
      · refine Keeps.bind (keeps_parseContains h _) fun _ => ?_
        split
        · exact keeps_nullErr _
        · refine Keeps.bind (keeps_parseTuple h _ _) fun _ => ?_
          split
          · exact keeps_nullErr _
          · refine Keeps.bind (keeps_parseOrFalse h _ _) fun _ => ?_
            split
            · exact keeps_nullErr _
            · exact keeps_okGen _

theorem keeps_parseProps {r : PRec} (h : KeepsRec c r) : ∀ l, Keeps c (parseProps c r l) := by
  intro l
  induction l with
  | nil => unfold parseProps; exact Keeps.pure _
  | cons x t ih =>
    obtain ⟨k, n⟩ := x
    unfold parseProps
    exact Keeps.bind (keeps_parseInScope h _ _ _) fun _ => Keeps.bind ih fun _ => Keeps.pure _

theorem keeps_patternRegex (k : String) : Keeps c (patternRegex c k) := by
  unfold patternRegex
  refine Keeps.bind (keeps_buildRegex _ _) fun _ => ?_
  keeps

theorem keeps_parsePatProps {r : PRec} (h : KeepsRec c r) : ∀ l, Keeps c (parsePatProps c r l) := by
  intro l
  induction l with
  | nil => unfold parsePatProps; exact Keeps.pure _
  | cons x t ih =>
    obtain ⟨k, n⟩ := x
    unfold parsePatProps
    exact Keeps.bind (keeps_parseInScope h _ _ _) fun _ => Keeps.bind (keeps_patternRegex _) fun _ =>
      Keeps.bind ih fun _ => Keeps.pure _

theorem keeps_parseAddProps {r : PRec} (h : KeepsRec c r) (x : Option (NodeOrFalse SchemaNode)) :
    Keeps c (parseAddProps c r x) := by
  unfold parseAddProps
  keeps
  exact keeps_parseInScope h _ _ _

theorem keeps_parseObject {r : PRec} (h : KeepsRec c r) (n : SchemaNode) : Keeps c (parseObject c r n) := by
  unfold parseObject
  split
  · exact keeps_nullErr _
  · exact Keeps.bind (keeps_parsePatProps h _) fun _ => Keeps.bind (keeps_parseProps h _) fun _ =>
      Keeps.bind (keeps_parseAddProps h _) fun _ => keeps_okGen _

theorem keeps_parseType {r : PRec} (h : KeepsRec c r) (t : String) (n : SchemaNode) : Keeps c (parseType c r t n) := by
  unfold parseType
  exact Keeps.ite (keeps_parseObject h n) (Keeps.ite (keeps_parseArray h n) (Keeps.ite (keeps_parseNumberNode n _)
    (Keeps.ite (keeps_parseNumberNode n _) (Keeps.ite (keeps_parseString n) (Keeps.ite (keeps_okGen _) (keeps_okGen _))))))

theorem keeps_parseTypes {r : PRec} (h : KeepsRec c r) (n : SchemaNode) : ∀ l, Keeps c (parseTypes c r n l) := by
  intro l
  induction l with
  | nil => unfold parseTypes; exact Keeps.pure _
  | cons x t ih =>
    unfold parseTypes
    exact Keeps.bind (keeps_parseType h _ _) fun _ => Keeps.bind ih fun _ => Keeps.pure _

theorem keeps_parseMultipleType {r : PRec} (h : KeepsRec c r) (n : SchemaNode) (l : List String) :
    Keeps c (parseMultipleType c r n l) := by
  unfold parseMultipleType
  exact Keeps.bind (keeps_parseTypes h _ _) fun _ => keeps_okGen _

theorem keeps_parseReference (ref : String) : Keeps c (parseReference c ref) := by
  unfold parseReference
  refine Keeps.ite (Keeps.pure _) ?_
  refine Keeps.bind (keeps_handleDeferred c _) fun _ => ?_
  split
  · exact Keeps.pure _
  · exact keeps_okGen _

theorem keeps_parseAllOf {r : PRec} (h : KeepsRec c r) (n : SchemaNode) (l : List SchemaNode) :
    Keeps c (parseAllOf c r n l) := by
  unfold parseAllOf
  dsimp only
  refine Keeps.bind (keeps_mergeNodes _ _) fun _ => Keeps.bind (keeps_parseInScope h _ _ _) fun _ => ?_
  split
  · exact keeps_nullErr _
  · exact keeps_okGen _

theorem keeps_parseBranch {r : PRec} (h : KeepsRec c r) (n : SchemaNode) (b : Bool) (i : Nat) (sub : SchemaNode) :
    Keeps c (parseBranch c r n b i sub) := by
  unfold parseBranch
  refine Keeps.bind (keeps_mergeNodes _ _) fun _ => ?_
  dsimp only
  refine Keeps.bind (keeps_mergeNodes _ _) fun _ => Keeps.bind (keeps_parseInScope h _ _ _) fun _ => ?_
  split
  · exact Keeps.bind (keeps_addErrorSub c _ _) fun _ => Keeps.pure _
  · exact Keeps.pure _

theorem keeps_parseBranches {r : PRec} (h : KeepsRec c r) (n : SchemaNode) (b : Bool) :
    ∀ (l : List SchemaNode) (i : Nat), Keeps c (parseBranches c r n b i l) := by
  intro l
  induction l with
  | nil => intro i; unfold parseBranches; exact Keeps.pure _
  | cons x t ih =>
    intro i
    unfold parseBranches
    exact Keeps.bind (keeps_parseBranch h _ _ _ _) fun _ => Keeps.bind (ih _) fun _ => Keeps.pure _

theorem keeps_flattenAll (k : Nat) : ∀ l, Keeps c (flattenAll c k l) := by
  intro l
  induction l with
  | nil => unfold flattenAll; exact Keeps.pure _
  | cons x t ih =>
    unfold flattenAll
    exact Keeps.bind (keeps_mergeNodes _ _) fun _ => Keeps.bind ih fun _ => Keeps.pure _

theorem keeps_oneOfValidators : ∀ (l : List SchemaNode) (i : Nat), Keeps c (oneOfValidators c i l) := by
  intro l
  induction l with
  | nil => intro i; unfold oneOfValidators; exact Keeps.pure _
  | cons x t ih =>
    intro i
    unfold oneOfValidators
    refine Keeps.bind (keeps_validatorFor c _ _) fun _ => ?_
    split
    · exact Keeps.bind (keeps_addErrorSub c _ _) fun _ => ih _
    · exact Keeps.bind (ih _) fun _ => Keeps.pure _

theorem keeps_parseCombination {r : PRec} (h : KeepsRec c r) (n : SchemaNode) : Keeps c (parseCombination c r n) := by
  unfold parseCombination
  dsimp only
  refine Keeps.bind (keeps_parseBranches h _ _ _ _) fun _ => ?_
  refine Keeps.ite ?_ ?_
  · exact Keeps.bind (keeps_flattenAll _ _) fun _ => Keeps.bind (keeps_oneOfValidators _ _) fun _ => keeps_okGen _
  · split
    · exact keeps_okGen _
    · exact keeps_nullErr _
    · exact keeps_okGen _

theorem keeps_parseNot {r : PRec} (h : KeepsRec c r) (n : SchemaNode) : Keeps c (parseNot c r n) := by
  unfold parseNot
  refine Keeps.bind (keeps_partitionNots _ _ _) fun parts => ?_
  dsimp only
  refine Keeps.bind (Keeps.ite (keeps_mergeNodes _ _) (Keeps.pure _)) fun _ => ?_
  refine Keeps.ite (h.schema _) ?_
  refine Keeps.bind (keeps_mergeNodes _ _) fun _ => Keeps.bind (keeps_applyNots _ _ _ _) fun _ =>
    Keeps.bind (h.node _) fun _ => ?_
  split
  · exact keeps_nullErr _
  · exact keeps_okGen _

theorem keeps_parseIfBody {r : PRec} (h : KeepsRec c r) (scope : String) (n : SchemaNode) (b : Option SchemaNode) :
    Keeps c (parseIfBody c r scope n b) := by
  unfold parseIfBody
  split
  · exact Keeps.pure _
  · refine Keeps.bind (keeps_mergeNodes _ _) fun _ => Keeps.bind (keeps_parseInScope h _ _ _) fun _ => ?_
    split
    · exact Keeps.bind (keeps_warnField c _ _) fun _ => Keeps.pure _
    · exact Keeps.pure _

theorem keeps_compileIf {r : PRec} (h : KeepsRec c r) (n : SchemaNode) (i : Nat) (st : IfStmt SchemaNode) :
    Keeps c (compileIf c r n i st) := by
  unfold compileIf
  split
  · exact Keeps.pure _
  · refine Keeps.ite (Keeps.pure _) ?_
    refine Keeps.bind (Keeps.gets _) fun _ => Keeps.bind (keeps_validatorFor c _ _) fun _ => ?_
    split
    · exact Keeps.pure _
    · exact Keeps.bind (keeps_parseIfBody h _ _ _) fun _ => Keeps.bind (keeps_parseIfBody h _ _ _) fun _ =>
        Keeps.pure _

theorem keeps_compileIfs {r : PRec} (h : KeepsRec c r) (n : SchemaNode) : ∀ (l : List (IfStmt SchemaNode)) (i : Nat),
    Keeps c (compileIfs c r n i l) := by
  intro l
  induction l with
  | nil => intro i; unfold compileIfs; exact Keeps.pure _
  | cons x t ih =>
    intro i
    unfold compileIfs
    refine Keeps.bind (keeps_compileIf h _ _ _) fun _ => ?_
    split
    · exact Keeps.bind (keeps_addErrorSub c _ _) fun _ => ih _
    · exact Keeps.bind (ih _) fun _ => Keeps.pure _

theorem keeps_parseIf {r : PRec} (h : KeepsRec c r) (n : SchemaNode) : Keeps c (parseIf c r n) := by
  unfold parseIf
  refine Keeps.bind (Keeps.gets _) fun _ => ?_
  dsimp only
  refine Keeps.bind (h.schema _) fun _ => ?_
  split
  · exact keeps_nullErr _
  · refine Keeps.ite (keeps_okGen _) ?_
    refine Keeps.bind (keeps_compileIfs h _ _ _) fun _ => Keeps.ite ?_ (keeps_okGen _)
    exact Keeps.bind (keeps_addErrorSub c _ _) fun _ => keeps_okGen _

theorem keeps_parseEnum (n : SchemaNode) (l : List JVal) : Keeps c (parseEnum c n l) := by
  unfold parseEnum
  refine Keeps.bind (keeps_validatorFor c _ _) fun _ => ?_
  split
  · exact keeps_nullErr _
  · split
    · exact keeps_nullErr _
    · exact keeps_okGen _
    · exact keeps_okGen _

theorem keeps_parseConst (n : SchemaNode) (v : JVal) : Keeps c (parseConst c n v) := by
  unfold parseConst
  refine Keeps.bind (keeps_validatorFor c _ _) fun _ => ?_
  split
  · exact keeps_nullErr _
  · exact Keeps.ite (keeps_okGen _) (keeps_nullErr _)

theorem keeps_parseByType {r : PRec} (h : KeepsRec c r) (n : SchemaNode) : Keeps c (parseByType c r n) := by
  unfold parseByType
  split
  · exact keeps_parseMultipleType h _ _
  · exact Keeps.ite (keeps_parseType h _ _) (Keeps.ite (keeps_parseMultipleType h _ _) (keeps_parseType h _ _))

theorem keeps_parseSchemaStep {r : PRec} (h : KeepsRec c r) (n : SchemaNode) : Keeps c (parseSchemaStep c r n) := by
  unfold parseSchemaStep
  split
  · exact keeps_nullErr _
  · split
    · exact keeps_parseReference _
    · split
      · exact keeps_parseAllOf h _ _
      · refine Keeps.ite (keeps_parseCombination h _) (Keeps.ite (keeps_parseNot h _) (Keeps.ite (keeps_parseIf h _) ?_))
        split
        · exact keeps_parseEnum _ _
        · split
          · exact keeps_parseConst _ _
          · exact keeps_parseByType h _

theorem keeps_recordErr (e : Option Err) : Keeps c (recordErr e) := by
  unfold recordErr
  keeps

theorem keeps_registerNode (n : SchemaNode) (g : Gen) : Keeps c (registerNode n g) := by
  unfold registerNode
  refine Keeps.bind ?_ fun _ => keeps_addReference c _
  split
  · exact keeps_addIdReference c _ _
  · exact Keeps.pure _

theorem keeps_parseNodeStep {schema : SchemaNode → PR} (h : ∀ n, Keeps c (schema n)) (n : SchemaNode) :
    Keeps c (parseNodeStep c schema n) := by
  intro s a s' h0
  unfold parseNodeStep at h0
  obtain ⟨_, s1, h1, h2⟩ := bind_ok.1 h0
  rw [modS_apply] at h1
  injection h1 with _ h1
  subst h1
  obtain ⟨d, s2, h3, h4⟩ := bind_ok.1 h2
  unfold gets at h3
  injection h3 with h3 h3'
  subst h3'
  dsimp only at h3
  split at h4
  · obtain ⟨_, s4, h5, h6⟩ := bind_ok.1 h4
    rw [modS_apply] at h5
    injection h5 with _ h5
    subst h5
    exact (Ev.level (Ev.refl c _)).trans (keeps_nullErr _ _ _ _ h6)
  · obtain ⟨r, s4, h5, h6⟩ := bind_ok.1 h4
    obtain ⟨_, s5, h7, h8⟩ := bind_ok.1 h6
    obtain ⟨_, s6, h9, h10⟩ := bind_ok.1 h8
    obtain ⟨_, s7, h11, h12⟩ := bind_ok.1 h10
    rw [modS_apply] at h11
    injection h11 with _ h11
    subst h11
    have E := ((h _ _ _ _ h5).trans (keeps_recordErr _ _ _ _ h7)).trans (keeps_registerNode _ _ _ _ _ h9)
    refine (Ev.level E).trans ?_
    cases hc : n.constraints with
    | some cc => rw [hc] at h12; exact keeps_okGen _ _ _ _ h12
    | none => rw [hc] at h12; exact Keeps.pure _ _ _ _ h12

theorem keeps_parseRec : ∀ k, KeepsRec c (parseRec c k) := by
  intro k
  induction k with
  | zero => exact ⟨fun _ => Keeps.oom, fun _ => Keeps.oom⟩
  | succ k ih => exact ⟨fun n => keeps_parseNodeStep ih.schema n, fun n => keeps_parseSchemaStep ih n⟩

theorem keeps_parseDefs {r : PRec} (h : KeepsRec c r) (kw : String) : ∀ l, Keeps c (parseDefs c r kw l) := by
  intro l
  induction l with
  | nil => unfold parseDefs; exact Keeps.pure _
  | cons x t ih =>
    obtain ⟨k, n⟩ := x
    unfold parseDefs
    exact Keeps.bind (keeps_parseInScope h _ _ _) fun _ => ih

theorem keeps_parseRoot {r : PRec} (h : KeepsRec c r) (n : SchemaNode) : Keeps c (parseRoot c r n) := by
  unfold parseRoot
  exact Keeps.bind (keeps_parseDefs h _ _) fun _ => Keeps.bind (keeps_parseDefs h _ _) fun _ => h.node _

end Chaff
