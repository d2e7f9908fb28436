import Verif.Lemmas.EndsNot
/-!
# Parsing always ends
-/

namespace Chaff
open Comp

section
variable {c : PEnv} {bad : String → Nat} {w : String → Nat} {B : PSt → Prop} {d : Int}

/-- The recursive calls of the parser end, at a depth. -/
structure RecParse (bad : String → Nat) (B : PSt → Prop) (d : Int) (r : Nat → PRec) : Prop where
  node : ∀ n, Fine bad n → Ends (At B d) (fun k => (r k).node n) (fun _ => True)
  fuel : ∀ {α : Type} {m : Nat → P α} {Q : α → Prop}, Ends (At B d) m Q → Ends (At B d) (fun k => m (r k).fuel) Q

section
variable {r : Nat → PRec}

theorem ends_validatorFor (W : RefWorld c bad w B) (n : SchemaNode) (field : String) :
    Ends (At B d) (fun _ => validatorFor c n field) (fun _ => True) :=
  Ends.const fun s hs => ⟨nofun, fun a s' e => by
    cases e
    exact ⟨trivial, W.frame _ _ hs.1 ⟨rfl, rfl, rfl, rfl, rfl, rfl, rfl, rfl⟩, hs.2⟩⟩

theorem ends_locatePush (W : RefWorld c bad w B) {α : Type} {Q : α → Prop} (ref : String) {f : Nat → Err → P α} {g : Nat → P α}
    (hf : ∀ e, Ends (At B d) (fun k => f k e) Q) (hg : Ends (At B d) g Q) :
    Ends (At B d) (fun k => (do
      let r ← resolveIdAndPath c ref
      match r with
      | .error e => f k e
      | .ok p => do
        pushRes p.1 p.2
        g k : P α)) Q := by
  refine Ends.bind' (I := At B d) (J := At B d) (m := fun _ => resolveIdAndPath c ref) fun s hs => ?_
  obtain ⟨x, h0, ⟨k0, h1⟩, h2⟩ := W.locate ref d s hs
  refine ⟨x, h0, ⟨k0, h1⟩, fun a s' e => ?_⟩
  cases a with
  | error er => exact hf er s' (h2 _ _ e).2
  | ok p =>
    have hp := W.push ref s p s' hs.1 ((h1 k0 (Nat.le_refl _)).trans e)
    refine Ends.bind' (I := fun t => t = s') (J := At B d) (m := fun _ => pushRes p.1 p.2) (fun t ht => ?_) s' rfl
    subst ht
    refine ⟨.ok () _, nofun, ⟨0, fun _ _ => rfl⟩, fun a s'' e' => ?_⟩
    cases e'
    exact hg _ ⟨hp, (h2 _ _ e).2.2⟩

theorem ends_pushSources (W : RefWorld c bad w B) (scope : String) : ∀ l : List SchemaNode,
    Ends (At B d) (fun _ => pushSources c scope l) (fun _ => True) := by
  intro l
  induction l with
  | nil => exact Ends.pure trivial
  | cons x t ih =>
    unfold pushSources
    split
    · exact ih
    · exact ends_locatePush W _ (fun e => Ends.bind (ends_addErrorSub W _ _) fun _ _ => ih)
        (Ends.bind ih fun _ _ => Ends.pure trivial)

theorem ends_popSources (W : RefWorld c bad w B) : ∀ n : Nat, Ends (At B d) (fun _ => popSources n) (fun _ => True) := by
  intro n
  induction n with
  | zero => exact Ends.pure trivial
  | succ n ih => unfold popSources; exact Ends.bind (ends_popRes W) fun _ _ => ih

theorem ends_parseInScope (W : RefWorld c bad w B) (h : RecParse bad B d r) (scope : String) (n : SchemaNode) (l : List SchemaNode)
    (hn : Fine bad n) : Ends (At B d) (fun k => parseInScope c (r k) scope n l) (fun _ => True) := by
  unfold parseInScope
  exact Ends.bind (ends_pushPath W _) fun _ _ => Ends.bind (ends_pushSources W _ _) fun _ _ => Ends.bind (h.node n hn) fun _ _ =>
    Ends.bind (ends_popSources W _) fun _ _ => Ends.bind (ends_popPath W _) fun _ _ => Ends.pure trivial

theorem ends_buildRegex (a : RxArgs) (p : String) : Ends (At B d) (fun _ => buildRegex c a p) (fun _ => True) := by
  unfold buildRegex
  split
  · exact Ends.pure trivial
  · exact Ends.pure trivial
  · exact Ends.fail

theorem ends_okGen (g : Gen) : Ends (At B d) (fun _ => okGen g) (fun _ => True) := Ends.pure trivial
theorem ends_nullErr (e : Err) : Ends (At B d) (fun _ => nullErr e) (fun _ => True) := Ends.pure trivial

theorem ends_parseString (n : SchemaNode) : Ends (At B d) (fun _ => parseString c n) (fun _ => True) := by
  unfold parseString
  split
  · exact ends_nullErr _
  · dsimp only
    split
    · exact ends_okGen _
    · refine Ends.bind (ends_buildRegex _ _) fun x _ => ?_
      cases x with
      | error e => exact ends_nullErr _
      | ok g => exact ends_okGen _

theorem ends_parseNumberNode (n : SchemaNode) (b : Bool) : Ends (At B d) (fun _ => parseNumberNode c n b) (fun _ => True) := by
  unfold parseNumberNode
  split
  · exact Ends.pure trivial
  · exact Ends.pure trivial

theorem ends_asSub {m : Nat → PR} (h : Ends (At B d) m (fun _ => True)) : Ends (At B d) (fun k => asSub (m k)) (fun _ => True) := by
  unfold asSub
  refine Ends.bind h fun x _ => ?_
  split
  · exact Ends.pure trivial
  · exact Ends.pure trivial

theorem fine_le {n m : SchemaNode} (h : Fine bad n) (hle : wt 0 bad m ≤ wt 0 bad n) : Fine bad m := h.of_le hle

theorem fine_of_wtO {x : Option SchemaNode} {n y : SchemaNode} (h : Fine bad n)
    (hle : wtO 0 bad x ≤ wt 0 bad n) (hx : x = some y) : Fine bad y := by
  refine h.of_le (le_trans ?_ hle)
  rw [hx, wtO_some]; omega

theorem ends_parseItems (W : RefWorld c bad w B) (h : RecParse bad B d r) (n : SchemaNode) (hn : Fine bad n) :
    Ends (At B d) (fun k => parseItems c (r k) n.items) (fun _ => True) := by
  have hle := le_items n (e := 0) (v := bad)
  unfold parseItems
  cases hi : n.items with
  | none => exact Ends.pure trivial
  | some x =>
    rw [hi, wtOI_some] at hle
    dsimp only
    refine Ends.ite (fun _ => Ends.pure trivial) fun _ => ?_
    cases hx : x.node with
    | none => exact Ends.pure trivial
    | some y => exact ends_asSub (ends_parseInScope W h _ _ _ (fine_of_wtO hn (by omega) hx))

theorem ends_parseOrFalse (W : RefWorld c bad w B) (h : RecParse bad B d r) (scope : String) (x : Option (NodeOrFalse SchemaNode))
    (n : SchemaNode) (hn : Fine bad n) (hle : wtOF 0 bad x ≤ wt 0 bad n) :
    Ends (At B d) (fun k => parseOrFalse c (r k) scope x) (fun _ => True) := by
  unfold parseOrFalse
  cases x with
  | none => exact Ends.pure trivial
  | some x =>
    rw [wtOF_some] at hle
    dsimp only
    cases hx : x.schema with
    | none => exact Ends.pure trivial
    | some y => exact ends_asSub (ends_parseInScope W h _ _ _ (fine_of_wtO hn (by omega) hx))

theorem fine_merge {l : List SchemaNode} {m : SchemaNode} (hl : wtSum 0 bad l = 0)
    (h : ∀ e v, Measures bad w e v → wt e v m ≤ wtSum e v l) : Fine bad m := by
  have h1 := hl
  have h2 := h _ _ (.inl ⟨rfl, rfl⟩)
  omega

theorem fine_sum {l : List SchemaNode} (h : ∀ x ∈ l, Fine bad x) : wtSum 0 bad l = 0 := by
  induction l with
  | nil => rfl
  | cons x t ih =>
    rw [wtSum_cons, h x (List.mem_cons_self ..) , ih fun y hy => h y (List.mem_cons_of_mem _ hy)]

theorem ends_merge (W : RefWorld c bad w B) (h : RecParse bad B d r) (l : List SchemaNode) (hl : ∀ x ∈ l, Fine bad x) :
    Ends (At B d) (fun k => mergeNodes c (r k).fuel l) (Fine bad) :=
  (h.fuel (ends_mergeNodes W l (fine_sum hl))).mono fun _ hm => fine_merge (fine_sum hl) hm

theorem fine_two {a b : SchemaNode} (ha : Fine bad a) (hb : Fine bad b) : ∀ x ∈ [a, b], Fine bad x := by
  intro x hx
  simp only [List.mem_cons, List.not_mem_nil, or_false] at hx
  rcases hx with rfl | rfl
  · exact ha
  · exact hb
theorem fine_one {a : SchemaNode} (ha : Fine bad a) : ∀ x ∈ [a], Fine bad x := by
  intro x hx
  simp only [List.mem_cons, List.not_mem_nil, or_false] at hx
  subst hx
  exact ha

theorem ends_parseContains (W : RefWorld c bad w B) (h : RecParse bad B d r) (n : SchemaNode) (hn : Fine bad n) :
    Ends (At B d) (fun k => parseContains c (r k) n) (fun _ => True) := by
  unfold parseContains
  cases hx : n.contains with
  | none => exact Ends.pure trivial
  | some x =>
    have hfx := fine_of_wtO hn (le_contains n) hx
    dsimp only
    refine Ends.bind (Q := Fine bad) ?_ fun m hm => ends_asSub (ends_parseInScope W h _ _ _ hm)
    have hle := le_items n (e := 0) (v := bad)
    unfold mergedContains
    cases hi : n.items with
    | none => exact Ends.pure hfx
    | some i =>
      rw [hi, wtOI_some] at hle
      dsimp only
      cases hy : i.node with
      | none => exact Ends.pure hfx
      | some y =>
        refine Ends.bind (ends_merge W h _ (fine_two (fine_of_wtO hn (by omega) hy) hfx)) fun m hm => Ends.pure (hm.of_le ?_)
        rw [wt_eq, wt_eq m]
        simp only [wtO_none]
        omega

theorem ends_parseTuple (W : RefWorld c bad w B) (h : RecParse bad B d r) : ∀ (l : List SchemaNode) (i : Nat), (∀ x ∈ l, Fine bad x) →
    Ends (At B d) (fun k => parseTuple c (r k) i l) (fun _ => True) := by
  intro l
  induction l with
  | nil => intro i _; exact Ends.pure trivial
  | cons x t ih =>
    intro i hl
    unfold parseTuple
    refine Ends.bind (ends_parseInScope W h _ _ _ (hl x (List.mem_cons_self ..))) fun g _ => ?_
    split
    · exact Ends.pure trivial
    · refine Ends.bind (ih _ fun y hy => hl y (List.mem_cons_of_mem _ hy)) fun x _ => ?_
      cases x <;> exact Ends.pure trivial

theorem fine_mem {l : List SchemaNode} {n : SchemaNode} (hn : Fine bad n) (hle : wtL 0 bad l ≤ wt 0 bad n) :
    ∀ x ∈ l, Fine bad x := fun x hx => hn.of_le (le_trans (by have := wtL_mem (e := 0) (w := bad) hx; omega) hle)
theorem fine_memM {l : List (String × SchemaNode)} {n : SchemaNode} (hn : Fine bad n)
    (hle : wtM 0 bad l ≤ wt 0 bad n) : ∀ p ∈ l, Fine bad p.2 := fun p hx =>
  hn.of_le (le_trans (by have := wtM_mem (e := 0) (w := bad) (k := p.1) (n := p.2) hx; omega) hle)

theorem fine_tupleNodes {n : SchemaNode} (hn : Fine bad n) : ∀ x ∈ tupleNodes n, Fine bad x := by
  have h1 := le_prefixItems n (e := 0) (v := bad)
  have h2 := le_items n (e := 0) (v := bad)
  unfold tupleNodes
  split
  · rename_i x l hl
    rw [hl, wtOL_some] at h1
    exact fine_mem hn h1
  · split
    · rename_i i hi
      rw [hi, wtOI_some] at h2
      refine fine_mem hn (le_trans ?_ h2)
      cases i.nodes <;> simp
    · exact nofun

theorem ends_parseArray (W : RefWorld c bad w B) (h : RecParse bad B d r) (n : SchemaNode) (hn : Fine bad n) :
    Ends (At B d) (fun k => parseArray c (r k) n) (fun _ => True) := by
  unfold parseArray
  split
  · exact ends_nullErr _
  · refine Ends.bind (ends_parseItems W h n hn) fun x1 _ => ?_
    cases x1 with
    | error e => exact ends_nullErr _
    | ok x1 =>
      refine Ends.bind (ends_parseOrFalse W h _ _ n hn (by rw [wt_eq]; omega)) fun x2 _ => ?_
      cases x2 with
      | error e => exact ends_nullErr _
      | ok x2 =>
        refine Ends.bind (ends_parseContains W h n hn) fun x3 _ => ?_
        cases x3 with
        | error e => exact ends_nullErr _
        | ok x3 =>
          refine Ends.bind (ends_parseTuple W h _ _ (fine_tupleNodes hn)) fun x4 _ => ?_
          cases x4 with
          | error e => exact ends_nullErr _
          | ok x4 =>
            refine Ends.bind (ends_parseOrFalse W h _ _ n hn ?_) fun x5 _ => ?_
            · have h1 := le_unevaluatedItems n (e := 0) (v := bad)
              unfold unevaluatedSchema
              split
              · rename_i x hx
                split
                · exact Nat.zero_le _
                · rw [hx] at h1
                  exact h1
              · exact Nat.zero_le _
            · cases x5 with
              | error e => exact ends_nullErr _
              | ok x5 => exact ends_okGen _

theorem ends_parseProps (W : RefWorld c bad w B) (h : RecParse bad B d r) : ∀ (l : List (String × SchemaNode)), (∀ p ∈ l, Fine bad p.2) →
    Ends (At B d) (fun k => parseProps c (r k) l) (fun _ => True) := by
  intro l
  induction l with
  | nil => intro _; exact Ends.pure trivial
  | cons x t ih =>
    obtain ⟨k, n⟩ := x
    intro hl
    unfold parseProps
    exact Ends.bind (ends_parseInScope W h _ _ _ (hl (k, n) (List.mem_cons_self ..))) fun g _ =>
      Ends.bind (ih fun y hy => hl y (List.mem_cons_of_mem _ hy)) fun _ _ => Ends.pure trivial

theorem ends_patternRegex (W : RefWorld c bad w B) (k : String) : Ends (At B d) (fun _ => patternRegex c k) (fun _ => True) := by
  unfold patternRegex
  refine Ends.bind (ends_buildRegex _ _) fun x _ => ?_
  cases x with
  | ok g => exact Ends.pure trivial
  | error e => exact Ends.bind (ends_addErrorSub W _ _) fun _ _ => Ends.pure trivial

theorem ends_parsePatProps (W : RefWorld c bad w B) (h : RecParse bad B d r) : ∀ (l : List (String × SchemaNode)), (∀ p ∈ l, Fine bad p.2) →
    Ends (At B d) (fun k => parsePatProps c (r k) l) (fun _ => True) := by
  intro l
  induction l with
  | nil => intro _; exact Ends.pure trivial
  | cons x t ih =>
    obtain ⟨k, n⟩ := x
    intro hl
    unfold parsePatProps
    exact Ends.bind (ends_parseInScope W h _ _ _ (hl (k, n) (List.mem_cons_self ..))) fun g _ =>
      Ends.bind (ends_patternRegex W _) fun _ _ =>
      Ends.bind (ih fun y hy => hl y (List.mem_cons_of_mem _ hy)) fun _ _ => Ends.pure trivial

theorem ends_parseAddProps (W : RefWorld c bad w B) (h : RecParse bad B d r) (n : SchemaNode) (hn : Fine bad n) :
    Ends (At B d) (fun k => parseAddProps c (r k) n.additionalProperties) (fun _ => True) := by
  have hle := le_additionalProperties n (e := 0) (v := bad)
  unfold parseAddProps
  cases hi : n.additionalProperties with
  | none => exact Ends.pure trivial
  | some x =>
    rw [hi, wtOF_some] at hle
    dsimp only
    refine Ends.ite (fun _ => Ends.pure trivial) fun _ => ?_
    cases hx : x.schema with
    | none => exact Ends.pure trivial
    | some y => exact Ends.bind (ends_parseInScope W h _ _ _ (fine_of_wtO hn (by omega) hx)) fun _ _ => Ends.pure trivial

theorem ends_parseObject (W : RefWorld c bad w B) (h : RecParse bad B d r) (n : SchemaNode) (hn : Fine bad n) :
    Ends (At B d) (fun k => parseObject c (r k) n) (fun _ => True) := by
  unfold parseObject
  split
  · exact ends_nullErr _
  · exact Ends.bind (ends_parsePatProps W h _ (fine_memM hn ((wtOM_zero _).le.trans (le_patternProperties n)))) fun _ _ =>
      Ends.bind (ends_parseProps W h _ (fine_memM hn ((wtOM_zero _).le.trans (le_properties n)))) fun _ _ =>
      Ends.bind (ends_parseAddProps W h n hn) fun _ _ => ends_okGen _

theorem ends_parseType (W : RefWorld c bad w B) (h : RecParse bad B d r) (t : String) (n : SchemaNode) (hn : Fine bad n) :
    Ends (At B d) (fun k => parseType c (r k) t n) (fun _ => True) := by
  unfold parseType
  exact Ends.ite (fun _ => ends_parseObject W h n hn) fun _ => Ends.ite (fun _ => ends_parseArray W h n hn) fun _ =>
    Ends.ite (fun _ => ends_parseNumberNode _ _) fun _ => Ends.ite (fun _ => ends_parseNumberNode _ _) fun _ =>
    Ends.ite (fun _ => ends_parseString _) fun _ => Ends.ite (fun _ => ends_okGen _) fun _ => ends_okGen _

theorem ends_parseTypes (W : RefWorld c bad w B) (h : RecParse bad B d r) (n : SchemaNode) (hn : Fine bad n) : ∀ l : List String,
    Ends (At B d) (fun k => parseTypes c (r k) n l) (fun _ => True) := by
  intro l
  induction l with
  | nil => exact Ends.pure trivial
  | cons x t ih =>
    unfold parseTypes
    exact Ends.bind (ends_parseType W h _ n hn) fun _ _ => Ends.bind ih fun _ _ => Ends.pure trivial

theorem ends_parseByType (W : RefWorld c bad w B) (h : RecParse bad B d r) (n : SchemaNode) (hn : Fine bad n) :
    Ends (At B d) (fun k => parseByType c (r k) n) (fun _ => True) := by
  unfold parseByType
  split
  · unfold parseMultipleType
    exact Ends.bind (ends_parseTypes W h n hn _) fun _ _ => ends_okGen _
  · refine Ends.ite (fun _ => ends_parseType W h _ n hn) fun _ => Ends.ite (fun _ => ?_) fun _ => ends_parseType W h _ n hn
    unfold parseMultipleType
    refine Ends.bind (ends_parseTypes W h _ (hn.of_le ?_) _) fun _ _ => ends_okGen _
    rw [wt_eq, wt_eq n]

theorem ends_parseAllOf (W : RefWorld c bad w B) (h : RecParse bad B d r) (n : SchemaNode) (l : List SchemaNode) (hn : Fine bad n)
    (hl : n.allOf = some l) : Ends (At B d) (fun k => parseAllOf c (r k) n l) (fun _ => True) := by
  have hf : ∀ x ∈ l ++ [{ n with allOf := none }], Fine bad x := by
    intro x hx
    have h1 := wt_eq (e := 0) (w := bad) n
    rcases List.mem_append.1 hx with hx | hx
    · have h2 := wtL_mem (e := 0) (w := bad) hx
      refine hn.of_le ?_
      rw [hl, wtOL_some] at h1
      omega
    · simp only [List.mem_cons, List.not_mem_nil, or_false] at hx
      subst hx
      refine hn.of_le ?_
      rw [h1, wt_eq]
      simp only [wtOL_none]
      omega
  unfold parseAllOf
  dsimp only
  refine Ends.bind (ends_merge W h _ hf) fun m hm => Ends.bind (ends_parseInScope W h _ _ _ hm) fun g _ => ?_
  split
  · exact ends_nullErr _
  · exact ends_okGen _

theorem ends_parseBranch (W : RefWorld c bad w B) (h : RecParse bad B d r) (n : SchemaNode) (b : Bool) (i : Nat) (sub : SchemaNode)
    (hn : Fine bad n) (hs : Fine bad sub) : Ends (At B d) (fun k => parseBranch c (r k) n b i sub) (fun _ => True) := by
  unfold parseBranch
  refine Ends.bind (ends_merge W h _ (fine_one hn)) fun m hm => ?_
  dsimp only
  refine Ends.bind (ends_merge W h _ (fine_two (a := if b then { m with oneOf := none } else { m with anyOf := none }) ?_ hs))
    fun m' hm' => Ends.bind (ends_parseInScope W h _ _ _ hm') fun g _ => ?_
  · split <;>
    · refine hm.of_le ?_
      rw [wt_eq, wt_eq m]
      simp only [wtOL_none]
      omega
  · split
    · exact Ends.bind (ends_addErrorSub W _ _) fun _ _ => Ends.pure trivial
    · exact Ends.pure trivial

theorem ends_parseBranches (W : RefWorld c bad w B) (h : RecParse bad B d r) (n : SchemaNode) (b : Bool) (hn : Fine bad n) :
    ∀ (l : List SchemaNode) (i : Nat), (∀ x ∈ l, Fine bad x) →
    Ends (At B d) (fun k => parseBranches c (r k) n b i l) (fun _ => True) := by
  intro l
  induction l with
  | nil => intro i _; exact Ends.pure trivial
  | cons x t ih =>
    intro i hl
    unfold parseBranches
    exact Ends.bind (ends_parseBranch W h n b i x hn (hl x (List.mem_cons_self ..))) fun _ _ =>
      Ends.bind (ih _ fun y hy => hl y (List.mem_cons_of_mem _ hy)) fun _ _ => Ends.pure trivial

theorem ends_flattenAll (W : RefWorld c bad w B) (h : RecParse bad B d r) : ∀ (l : List SchemaNode), (∀ x ∈ l, Fine bad x) →
    Ends (At B d) (fun k => flattenAll c (r k).fuel l) (fun _ => True) := by
  intro l
  induction l with
  | nil => intro _; exact Ends.pure trivial
  | cons x t ih =>
    intro hl
    unfold flattenAll
    exact Ends.bind (ends_merge W h _ (fine_one (hl x (List.mem_cons_self ..)))) fun _ _ =>
      Ends.bind (ih fun y hy => hl y (List.mem_cons_of_mem _ hy)) fun _ _ => Ends.pure trivial

theorem ends_oneOfValidators (W : RefWorld c bad w B) : ∀ (l : List SchemaNode) (i : Nat),
    Ends (At B d) (fun _ => oneOfValidators c i l) (fun _ => True) := by
  intro l
  induction l with
  | nil => intro i; exact Ends.pure trivial
  | cons x t ih =>
    intro i
    unfold oneOfValidators
    refine Ends.bind (ends_validatorFor W _ _) fun v _ => ?_
    cases v with
    | none => exact Ends.bind (ends_addErrorSub W _ _) fun _ _ => ih _
    | some f => exact Ends.bind (ih _) fun _ _ => Ends.pure trivial

theorem ends_parseCombination (W : RefWorld c bad w B) (h : RecParse bad B d r) (n : SchemaNode) (hn : Fine bad n) :
    Ends (At B d) (fun k => parseCombination c (r k) n) (fun _ => True) := by
  have h1 : ∀ x ∈ getZeroIfNil n.oneOf [], Fine bad x :=
    fine_mem hn ((wtOL_zero _).le.trans (by rw [wt_eq]; omega))
  have h2 : ∀ x ∈ getZeroIfNil n.anyOf [], Fine bad x :=
    fine_mem hn ((wtOL_zero _).le.trans (by rw [wt_eq]; omega))
  unfold parseCombination
  dsimp only
  refine Ends.bind (ends_parseBranches W h n _ hn _ _ ?_) fun gs _ => Ends.ite (fun _ => ?_) fun _ => ?_
  · split
    · exact h1
    · exact h2
  · exact Ends.bind (ends_flattenAll W h _ h1) fun _ _ => Ends.bind (ends_oneOfValidators W _ _) fun _ _ => ends_okGen _
  · split
    · exact ends_okGen _
    · exact ends_nullErr _
    · exact ends_okGen _

theorem ends_parseIfBody (W : RefWorld c bad w B) (h : RecParse bad B d r) (scope : String) (n : SchemaNode) (b : Option SchemaNode)
    (hn : Fine bad n) (hb : ∀ x, b = some x → Fine bad x) :
    Ends (At B d) (fun k => parseIfBody c (r k) scope n b) (fun _ => True) := by
  unfold parseIfBody
  cases b with
  | none => exact Ends.pure trivial
  | some b =>
    dsimp only
    refine Ends.bind (ends_merge W h _ (fine_two hn (hb b rfl))) fun m hm => Ends.bind (ends_parseInScope W h _ _ _ hm) fun g _ => ?_
    split
    · exact Ends.bind (ends_warnField W _ _) fun _ _ => Ends.pure trivial
    · exact Ends.pure trivial

/-- The branches of a conditional have no references, if none are allowed. -/
def FineSt (bad : String → Nat) (st : IfStmt SchemaNode) : Prop :=
  (∀ x, st.thenN = some x → Fine bad x) ∧ ∀ x, st.elseN = some x → Fine bad x

theorem ends_compileIf (W : RefWorld c bad w B) (h : RecParse bad B d r) (n : SchemaNode) (i : Nat) (st : IfStmt SchemaNode)
    (hn : Fine bad n) (hs : FineSt bad st) : Ends (At B d) (fun k => compileIf c (r k) n i st) (fun _ => True) := by
  unfold compileIf
  split
  · exact Ends.pure trivial
  · refine Ends.ite (fun _ => Ends.pure trivial) fun _ => Ends.bind Ends.gets fun _ _ => Ends.bind (ends_validatorFor W _ _) fun v _ => ?_
    cases v with
    | none => exact Ends.pure trivial
    | some f =>
      exact Ends.bind (ends_parseIfBody W h _ n _ hn hs.1) fun _ _ => Ends.bind (ends_parseIfBody W h _ n _ hn hs.2) fun _ _ =>
        Ends.pure trivial

theorem ends_compileIfs (W : RefWorld c bad w B) (h : RecParse bad B d r) (n : SchemaNode) (hn : Fine bad n) :
    ∀ (l : List (IfStmt SchemaNode)) (i : Nat), (∀ x ∈ l, FineSt bad x) →
    Ends (At B d) (fun k => compileIfs c (r k) n i l) (fun _ => True) := by
  intro l
  induction l with
  | nil => intro i _; exact Ends.pure trivial
  | cons x t ih =>
    intro i hl
    have ih := ih (i + 1) fun y hy => hl y (List.mem_cons_of_mem _ hy)
    unfold compileIfs
    refine Ends.bind (ends_compileIf W h n i x hn (hl x (List.mem_cons_self ..))) fun y _ => ?_
    cases y with
    | error e => exact Ends.bind (ends_addErrorSub W _ _) fun _ _ => ih
    | ok y => exact Ends.bind ih fun _ _ => Ends.pure trivial

theorem fineSt_mem {l : List (IfStmt SchemaNode)} {n : SchemaNode} (hn : Fine bad n)
    (hle : wtIfs 0 bad l ≤ wt 0 bad n) : ∀ x ∈ l, FineSt bad x := by
  induction l with
  | nil => exact nofun
  | cons y t ih =>
    intro x hx
    rw [wtIfs_cons] at hle
    rcases List.mem_cons.1 hx with rfl | hx
    · exact ⟨fun z hz => fine_of_wtO hn (by omega) hz, fun z hz => fine_of_wtO hn (by omega) hz⟩
    · exact ih (by omega) x hx

theorem ends_parseIf (W : RefWorld c bad w B) (h : RecParse bad B d r) (n : SchemaNode) (hn : Fine bad n)
    (hif : n.ifN.isSome ∨ n.mergedIf.length ≠ 0)
    (hs : ∀ m, Fine bad m → wt 1 w m < wt 1 w n → Ends (At B d) (fun k => (r k).schema m) (fun _ => True)) :
    Ends (At B d) (fun k => parseIf c (r k) n) (fun _ => True) := by
  have e0 := wt_eq (e := 0) (w := bad) n
  have e1 := wt_eq (e := 1) (w := w) n
  have hm : ∀ e v, wt e v { n with ifN := none, thenN := none, elseN := none, mergedIf := [] } + wtIf e v n.ifN +
      wtIfs e v n.mergedIf ≤ wt e v n := fun e v => by
    rw [wt_eq, wt_eq n]
    simp only [wtIf_none, wtO_none, wtIfs_nil]
    omega
  have hfm : Fine bad { n with ifN := none, thenN := none, elseN := none, mergedIf := [] } := hn.of_le (by have := hm 0 bad; omega)
  unfold parseIf
  refine Ends.bind Ends.gets fun path _ => ?_
  have hst : ∀ x ∈ (if n.ifN.isSome then n.mergedIf ++ [newIfStatement n path] else n.mergedIf), FineSt bad x := by
    have h1 : ∀ x ∈ n.mergedIf, FineSt bad x := fineSt_mem hn (by omega)
    intro x hx
    split at hx
    · rcases List.mem_append.1 hx with hx | hx
      · exact h1 x hx
      · simp only [List.mem_cons, List.not_mem_nil, or_false] at hx
        subst hx
        exact ⟨fun z hz => fine_of_wtO (x := n.thenN) hn (by omega) hz, fun z hz => fine_of_wtO (x := n.elseN) hn (by omega) hz⟩
    · exact h1 x hx
  dsimp only
  refine Ends.bind (hs _ hfm ?_) fun g _ => ?_
  · have := hm 1 w
    rcases hif with hi | hi
    · obtain ⟨x, hx⟩ := Option.isSome_iff_exists.1 hi
      rw [hx, wtIf_some] at this
      omega
    · cases hx : n.mergedIf with
      | nil => rw [hx] at hi; exact absurd rfl hi
      | cons x t =>
        rw [hx, wtIfs_cons] at this
        omega
  · split
    · exact ends_nullErr _
    · refine Ends.ite (fun _ => ends_okGen _) fun _ => Ends.bind (ends_compileIfs W h _ hfm _ _ hst) fun cs _ =>
        Ends.ite (fun _ => Ends.bind (ends_addErrorSub W _ _) fun _ _ => ends_okGen _) fun _ => ends_okGen _

theorem ends_parseNot (W : RefWorld c bad w B) (h : RecParse bad B d r) (n : SchemaNode) (hn : Fine bad n)
    (hnot : n.not.isSome ∨ 0 < n.mergedNot.length)
    (hs : ∀ m, Fine bad m → wt 1 w m < wt 1 w n → Ends (At B d) (fun k => (r k).schema m) (fun _ => True)) :
    Ends (At B d) (fun k => parseNot c (r k) n) (fun _ => True) := by
  have hm : ∀ e v, wt e v { n with not := none, mergedNot := [] } + wtL e v (collectNots n) ≤ wt e v n := fun e v => by
    have h1 : wtL e v n.not.toList = wtO e v n.not := by cases n.not <;> simp
    rw [wt_eq, wt_eq n, collectNots]
    simp only [wtO_none, wtL_nil, wtL_append]
    omega
  have hfm : Fine bad { n with not := none, mergedNot := [] } := hn.of_le (by have := hm 0 bad; omega)
  have hlen : 0 < (collectNots n).length := by
    rw [collectNots]
    rcases hnot with hi | hi
    · obtain ⟨x, hx⟩ := Option.isSome_iff_exists.1 hi
      simp [hx]
    · simp; omega
  have hfc : ∀ x ∈ collectNots n, Fine bad x := fine_mem hn (by have := hm 0 bad; omega)
  have hsum : wtL 1 w (collectNots n) = (collectNots n).length + wtSum 1 w (collectNots n) := by
    rw [wtL_eq, Nat.one_mul]
  unfold parseNot
  refine Ends.bind (h.fuel (ends_partitionNots W (collectNots n) 0 hfc)) fun parts hp => ?_
  obtain ⟨hp1, hp2, hp3, hp4⟩ := hp
  dsimp only
  refine Ends.bind (Q := fun m => Fine bad m ∧ (parts.1.length = 0 → wt 1 w m < wt 1 w n)) ?_ fun base hb =>
    Ends.ite (fun hz => hs base hb.1 (hb.2 hz)) fun _ => ?_
  · refine Ends.ite (fun _ => ?_) fun hz => Ends.pure ⟨hfm, fun hz' => ?_⟩
    · have hall : ∀ x ∈ { n with not := none, mergedNot := [] } :: parts.2, Fine bad x := by
        intro x hx
        rcases List.mem_cons.1 hx with rfl | hx
        · exact hfm
        · exact hp2 x hx
      refine (h.fuel (ends_mergeNodes W _ (fine_sum hall))).mono fun m hmm => ⟨fine_merge (fine_sum hall) hmm, fun hz => ?_⟩
      have h1 := hmm 1 w (.inr ⟨rfl, rfl⟩)
      have h2 := wtL_eq (e := 1) (w := w) parts.2
      have h3 := hm 1 w
      rw [wtSum_cons] at h1
      omega
    · have := hp4 hz'
      omega
  · refine Ends.bind (ends_merge W h _ (fine_one hb.1)) fun flat hf =>
      Ends.bind (h.fuel (ends_applyNots W parts.1 flat {} hf hp1)) fun res hres => Ends.bind (h.node _ hres) fun g _ => ?_
    split
    · exact ends_nullErr _
    · exact ends_okGen _

theorem ends_parseEnum (W : RefWorld c bad w B) (n : SchemaNode) (l : List JVal) :
    Ends (At B d) (fun _ => parseEnum c n l) (fun _ => True) := by
  unfold parseEnum
  refine Ends.bind (ends_validatorFor W _ _) fun v _ => ?_
  cases v with
  | none => exact ends_nullErr _
  | some f =>
    dsimp only
    split
    · exact ends_nullErr _
    · exact ends_okGen _
    · exact ends_okGen _

theorem ends_parseConst (W : RefWorld c bad w B) (n : SchemaNode) (x : JVal) :
    Ends (At B d) (fun _ => parseConst c n x) (fun _ => True) := by
  unfold parseConst
  refine Ends.bind (ends_validatorFor W _ _) fun v _ => ?_
  cases v with
  | none => exact ends_nullErr _
  | some f => exact Ends.ite (fun _ => ends_okGen _) fun _ => ends_nullErr _

theorem ends_parseReference (W : RefWorld c bad w B) (ref : String) (hr : bad ref = 0) :
    Ends (At B d) (fun _ => parseReference c ref) (fun _ => True) := by
  unfold parseReference
  refine Ends.ite (fun _ => Ends.pure trivial) fun _ => Ends.bind (W.defer ref d hr) fun x _ => ?_
  cases x with
  | error e => exact Ends.pure trivial
  | ok p => exact ends_okGen _

theorem ends_parseSchemaStep (W : RefWorld c bad w B) (h : RecParse bad B d r) (n : SchemaNode) (hn : Fine bad n)
    (hs : ∀ m, Fine bad m → wt 1 w m < wt 1 w n → Ends (At B d) (fun k => (r k).schema m) (fun _ => True)) :
    Ends (At B d) (fun k => parseSchemaStep c (r k) n) (fun _ => True) := by
  unfold parseSchemaStep
  split
  · exact ends_nullErr _
  · cases hr : n.ref with
    | some ref =>
      refine ends_parseReference W ref ?_
      have : wt 0 bad n = 0 := hn
      rw [wt_eq, hr, wtRef_some] at this
      omega
    | none =>
      dsimp only
      cases ha : n.allOf with
      | some l => exact ends_parseAllOf W h n l hn ha
      | none =>
        refine Ends.ite (fun _ => ends_parseCombination W h n hn) fun _ => Ends.ite (fun hx => ends_parseNot W h n hn hx hs) fun _ =>
          Ends.ite (fun hx => ends_parseIf W h n hn hx hs) fun _ => ?_
        split
        · exact ends_parseEnum W _ _
        · split
          · exact ends_parseConst W _ _
          · exact ends_parseByType W h n hn

theorem ends_recordErr (W : RefWorld c bad w B) (e : Option Err) : Ends (At B d) (fun _ => recordErr e) (fun _ => True) := by
  unfold recordErr
  cases e with
  | none => exact Ends.pure trivial
  | some e => exact ends_addError W e

theorem ends_addReference (W : RefWorld c bad w B) (g : Gen) : Ends (At B d) (fun _ => addReference g) (fun _ => True) :=
  W.step (fun _ => ⟨rfl, rfl, rfl, rfl, rfl, rfl, rfl, rfl⟩) fun _ => rfl
theorem ends_addIdReference (W : RefWorld c bad w B) (i : String) (g : Gen) :
    Ends (At B d) (fun _ => addIdReference i g) (fun _ => True) :=
  W.step (fun _ => ⟨rfl, rfl, rfl, rfl, rfl, rfl, rfl, rfl⟩) fun _ => rfl

theorem ends_registerNode (W : RefWorld c bad w B) (n : SchemaNode) (g : Gen) :
    Ends (At B d) (fun _ => registerNode n g) (fun _ => True) := by
  unfold registerNode
  cases n.id with
  | none => exact Ends.bind (Ends.pure (Q := fun _ => True) trivial) fun _ _ => ends_addReference W g
  | some i => exact Ends.bind (ends_addIdReference W i g) fun _ _ => ends_addReference W g

end

/-- The invariant of a depth counter. -/
theorem ends_parseNodeStep (W : RefWorld c bad w B) {schema : Nat → SchemaNode → PR} (n : SchemaNode)
    (hs : d + 1 ≤ c.maxParseDepth → Ends (At B (d + 1)) (fun k => schema k n) (fun _ => True)) :
    Ends (At B d) (fun k => parseNodeStep c (schema k) n) (fun _ => True) := by
  unfold parseNodeStep
  refine Ends.bind' (J := At B d) (m := fun _ => Comp.modS fun s => { s with depth := s.depth + 1 }) fun s hs0 => ?_
  refine ⟨.ok () { s with depth := s.depth + 1 }, nofun, ⟨0, fun _ _ => rfl⟩, fun a s' e => ?_⟩
  cases e
  refine Ends.bind' (I := At B (d + 1)) (J := At B d) (m := fun _ => gets fun s => s.depth) (fun s hs1 => ?_) _ (ends_up W s hs0)
  refine ⟨.ok s.depth s, nofun, ⟨0, fun _ _ => rfl⟩, fun a s' e => ?_⟩
  cases e
  by_cases hd : s.depth > c.maxParseDepth
  · simp only [if_pos hd]
    refine ⟨.ok _ _, nofun, ⟨0, fun _ _ => rfl⟩, fun b s'' e' => ?_⟩
    cases e'
    exact ⟨trivial, ends_down W s hs1⟩
  · simp only [if_neg hd]
    have hs := hs (by have := hs1.2; omega)
    refine Ends.bind' (I := At B (d + 1)) (J := At B d) (m := fun k => schema k n) (fun s hs1 => ?_) _ hs1
    obtain ⟨x, h0, h1, h2⟩ := hs s hs1
    refine ⟨x, h0, h1, fun a s' e => ?_⟩
    refine Ends.bind' (I := At B (d + 1)) (J := At B d) (m := fun _ => recordErr a.2) (fun s hs1 => ?_) _ (h2 a s' e).2
    obtain ⟨x, h0, h1, h2⟩ := ends_recordErr W a.2 s hs1
    refine ⟨x, h0, h1, fun _ s' e => ?_⟩
    refine Ends.bind' (I := At B (d + 1)) (J := At B d) (m := fun _ => registerNode n (nilToNull a.1)) (fun s hs1 => ?_) _ (h2 _ s' e).2
    obtain ⟨x, h0, h1, h2⟩ := ends_registerNode W n (nilToNull a.1) s hs1
    refine ⟨x, h0, h1, fun _ s' e => ?_⟩
    refine Ends.bind' (I := At B (d + 1)) (J := At B d) (m := fun _ => Comp.modS fun s => { s with depth := s.depth - 1 })
      (fun s hs1 => ?_) _ (h2 _ s' e).2
    refine ⟨.ok () { s with depth := s.depth - 1 }, nofun, ⟨0, fun _ _ => rfl⟩, fun b s'' e' => ?_⟩
    cases e'
    have : Ends (At B d) (fun _ => (match n.constraints with
        | some cc => okGen (.constrained (nilToNull a.1) [compileColl c cc])
        | none => pure (nilToNull a.1, a.2) : PR)) (fun _ => True) := by
      cases n.constraints with
      | none => exact Ends.pure trivial
      | some cc => exact ends_okGen _
    exact this _ (ends_down W _ hs1)

/-- Both recursive entry points of the parser end, at every depth. -/
theorem ends_parse (W : RefWorld c bad w B) : ∀ (D : Nat) (d : Int), c.maxParseDepth - d ≤ D →
    (∀ n, Fine bad n → Ends (At B d) (fun k => (parseRec c k).node n) (fun _ => True)) := by
  -- the schema level, given the node level
  have key : ∀ d : Int, (∀ n, Fine bad n → Ends (At B d) (fun k => (parseRec c k).node n) (fun _ => True)) →
      ∀ (S : Nat) (n : SchemaNode), Fine bad n → wt 1 w n ≤ S →
        Ends (At B d) (fun k => (parseRec c k).schema n) (fun _ => True) := by
    intro d hnode S
    have hrec : RecParse bad B d (fun k => parseRec c k) :=
      ⟨hnode, fun {α m Q} hm => Ends.shift (m := fun k => m (parseRec c k).fuel) hm⟩
    induction S with
    | zero =>
      intro n hn hS
      refine Ends.shift ?_
      exact ends_parseSchemaStep W hrec n hn fun m _ hlt => absurd hlt (by omega)
    | succ S ih =>
      intro n hn hS
      refine Ends.shift ?_
      exact ends_parseSchemaStep W hrec n hn fun m hm hlt => ih m hm (by omega)
  intro D
  induction D with
  | zero =>
    intro d hd n hn
    refine Ends.shift ?_
    exact ends_parseNodeStep W n fun h => absurd h (by omega)
  | succ D ih =>
    intro d hd n hn
    refine Ends.shift ?_
    refine ends_parseNodeStep W n fun _ => ?_
    exact key (d + 1) (ih (d + 1) (by omega)) (wt 1 w n) n hn (Nat.le_refl _)

theorem ends_parseNode (W : RefWorld c bad w B) (n : SchemaNode) (hn : Fine bad n) :
    Ends (At B d) (fun k => (parseRec c k).node n) (fun _ => True) :=
  ends_parse W (c.maxParseDepth - d).toNat d (by omega) n hn

theorem recParse (W : RefWorld c bad w B) : RecParse bad B d (fun k => parseRec c k) :=
  ⟨fun n hn => ends_parseNode W n hn, fun {_ m _} hm => Ends.shift (m := fun k => m (parseRec c k).fuel) hm⟩

theorem ends_parseDefs (W : RefWorld c bad w B) (kw : String) : ∀ l : List (String × SchemaNode), (∀ p ∈ l, Fine bad p.2) →
    Ends (At B d) (fun k => parseDefs c (parseRec c k) kw l) (fun _ => True) := by
  intro l
  induction l with
  | nil => intro _; exact Ends.pure trivial
  | cons x t ih =>
    obtain ⟨k, n⟩ := x
    intro hl
    unfold parseDefs
    exact Ends.bind (ends_parseInScope W (recParse W) _ _ _ (hl (k, n) (List.mem_cons_self ..))) fun _ _ =>
      ih fun y hy => hl y (List.mem_cons_of_mem _ hy)

theorem ends_parseRoot (W : RefWorld c bad w B) (n : SchemaNode) (hn : Fine bad n) :
    Ends (At B d) (fun k => parseRoot c (parseRec c k) n) (fun _ => True) := by
  unfold parseRoot
  exact Ends.bind (ends_parseDefs W _ _ (fine_memM hn ((wtOM_zero _).le.trans (by rw [wt_eq]; omega)))) fun _ _ =>
    Ends.bind (ends_parseDefs W _ _ (fine_memM hn ((wtOM_zero _).le.trans (by rw [wt_eq]; omega)))) fun _ _ =>
    ends_parseNode W n hn

end

end Chaff
