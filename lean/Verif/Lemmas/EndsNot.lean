import Verif.Lemmas.EndsMerge
/-!
# Applying negations always ends
-/

namespace Chaff
open Comp

section
variable {c : PEnv} {bad : String → Nat} {w : String → Nat} {B : PSt → Prop} {d : Int}

theorem Fine.empty : Fine bad emptyNode := rfl
theorem Fine.default : Fine bad {} := rfl

theorem le_properties (n : SchemaNode) {e : Nat} {v : String → Nat} : wtOM e v n.properties ≤ wt e v n := by rw [wt_eq]; omega
theorem le_additionalProperties (n : SchemaNode) {e : Nat} {v : String → Nat} : wtOF e v n.additionalProperties ≤ wt e v n := by rw [wt_eq]; omega
theorem le_patternProperties (n : SchemaNode) {e : Nat} {v : String → Nat} : wtOM e v n.patternProperties ≤ wt e v n := by rw [wt_eq]; omega
theorem le_items (n : SchemaNode) {e : Nat} {v : String → Nat} : wtOI e v n.items ≤ wt e v n := by rw [wt_eq]; omega
theorem le_contains (n : SchemaNode) {e : Nat} {v : String → Nat} : wtO e v n.contains ≤ wt e v n := by rw [wt_eq]; omega
theorem le_prefixItems (n : SchemaNode) {e : Nat} {v : String → Nat} : wtOL e v n.prefixItems ≤ wt e v n := by rw [wt_eq]; omega
theorem le_unevaluatedItems (n : SchemaNode) {e : Nat} {v : String → Nat} : wtOF e v n.unevaluatedItems ≤ wt e v n := by rw [wt_eq]; omega
theorem le_not (n : SchemaNode) {e : Nat} {v : String → Nat} : wtO e v n.not ≤ wt e v n := by rw [wt_eq]; omega
theorem le_mergedNot (n : SchemaNode) {e : Nat} {v : String → Nat} : wtL e v n.mergedNot ≤ wt e v n := by rw [wt_eq]; omega

/-- The part of a node that can hold references. -/
theorem Fine.of_le {n m : SchemaNode} (h : Fine bad m) (hle : wt 0 bad n ≤ wt 0 bad m) : Fine bad n :=
  Nat.le_zero.1 (hle.trans (h).le)

theorem ends_boundsInt (W : RefWorld c bad w B) (f : String) (a b x y : Option Int) :
    Ends (At B d) (fun _ => boundsInt f a b x y) (fun _ => True) := by
  unfold boundsInt
  exact Ends.ite (fun _ => Ends.bind (ends_warnField W _ _) fun _ _ => Ends.pure trivial) fun _ => Ends.pure trivial

/-- All measures of the first are those of the second. -/
def SameWt (a b : SchemaNode) : Prop := ∀ e v, wt e v a = wt e v b

theorem ends_notApplyString (W : RefWorld c bad w B) (node notNode newNode : SchemaNode) (cc : ConstraintColl) :
    Ends (At B d) (fun _ => notApplyString c node notNode newNode cc) (fun r => SameWt r.1 newNode) := by
  unfold notApplyString
  refine Ends.bind (ends_boundsInt W _ _ _ _ _) fun b _ => ?_
  have hs : SameWt { newNode with minLength := b.1, maxLength := b.2, pattern := node.pattern, format := node.format } newNode :=
    fun e v => by rw [wt_eq, wt_eq newNode]
  dsimp only
  split
  · refine Ends.ite (fun _ => Ends.bind (ends_warnField W _ _) fun _ _ => Ends.pure hs) fun _ =>
      Ends.ite (fun _ => Ends.pure hs) fun _ => ?_
    split
    · exact Ends.bind (ends_warnField W _ _) fun _ _ => Ends.pure hs
    · exact Ends.pure hs
  · split
    · exact Ends.pure hs
    · refine Ends.ite (fun _ => Ends.bind (ends_warnField W _ _) fun _ _ => Ends.pure hs) fun _ =>
        Ends.ite (fun _ => Ends.pure hs) fun _ => ?_
      split
      · exact Ends.bind (ends_warnField W _ _) fun _ _ => Ends.pure hs
      · exact Ends.pure hs

theorem ends_when (W : RefWorld c bad w B) (p : Prop) [Decidable p] (f : String) (e : Err) :
    Ends (At B d) (fun _ => if p then warnField f e else pure ()) (fun _ => True) :=
  Ends.ite (fun _ => ends_warnField W _ _) fun _ => Ends.pure trivial

theorem Ends.warnThen {α : Type} (W : RefWorld c bad w B) {p : Prop} [Decidable p] {f : String} {e : Err} {m : Nat → P α} {Q : α → Prop}
    (h : Ends (At B d) m Q) : Ends (At B d) (fun k => if p then (do warnField f e; m k) else m k) Q :=
  Ends.ite (fun _ => Ends.bind (ends_warnField W _ _) fun _ _ => h) fun _ => h

theorem ends_setMultiples (W : RefWorld c bad w B) (l : List Rat) (n : SchemaNode) :
    Ends (At B d) (fun _ => setMultiples l n) (fun r => SameWt r n) := by
  have hs : ∀ x, SameWt { n with multipleOf := none, maximum := none, minimum := none, enum := x } n := fun x e v => by
    rw [wt_eq, wt_eq n]
  unfold setMultiples
  dsimp only
  split
  · exact Ends.warnThen W (Ends.pure (hs _))
  · exact Ends.pure (hs _)

theorem ends_applyMultiples (W : RefWorld c bad w B) (fp : FP) (b : FloatBounds) (x y : Rat) (node n : SchemaNode) :
    Ends (At B d) (fun _ => applyMultiples fp b x y node n) (fun r => SameWt r n) := by
  have h0 : SameWt n n := fun _ _ => rfl
  unfold applyMultiples
  refine Ends.ite (fun _ => Ends.pure h0) fun _ => Ends.ite (fun _ => Ends.bind (ends_warnField W _ _) fun _ _ => Ends.pure h0)
    fun _ => Ends.ite (fun _ => Ends.bind (ends_warnField W _ _) fun _ _ => Ends.pure h0) fun _ =>
    Ends.ite (fun _ => Ends.bind (ends_warnField W _ _) fun _ _ => Ends.pure h0) fun _ => Ends.ite (fun _ => ?_) fun _ => ?_
  · split
    · exact Ends.bind (ends_warnField W _ _) fun _ _ => Ends.pure h0
    · exact ends_setMultiples W _ _
  · exact Ends.pure fun e v => by rw [wt_eq, wt_eq n]

theorem ends_notApplyNumber (W : RefWorld c bad w B) (fp : FP) (node notNode newNode : SchemaNode) :
    Ends (At B d) (fun _ => notApplyNumber fp node notNode newNode) (fun r => SameWt r newNode) := by
  unfold notApplyNumber
  dsimp only
  refine Ends.warnThen W ((ends_applyMultiples W _ _ _ _ _ _).mono fun r hr => ?_)
  intro e v
  rw [hr e v, wt_eq, wt_eq newNode]

theorem ends_notEnumRest (W : RefWorld c bad w B) (node notNode newNode : SchemaNode) :
    Ends (At B d) (fun _ => notEnumRest node notNode newNode) (fun r => SameWt r newNode) := by
  unfold notEnumRest
  exact Ends.ite (fun _ => Ends.bind (ends_warnField W _ _) fun _ _ => Ends.pure fun _ _ => rfl) fun _ =>
    Ends.pure fun e v => by rw [wt_eq, wt_eq newNode]

theorem ends_notApplyEnum (W : RefWorld c bad w B) (node notNode newNode : SchemaNode) (cc : ConstraintColl) :
    Ends (At B d) (fun _ => notApplyEnum node notNode newNode cc) (fun r => SameWt r.1 newNode) := by
  unfold notApplyEnum
  refine Ends.ite (fun _ => Ends.pure fun _ _ => rfl) fun _ => ?_
  dsimp only
  refine Ends.ite (fun _ => ?_) fun _ => Ends.bind (ends_notEnumRest W _ _ _) fun _ h => Ends.pure h
  split
  · exact Ends.pure fun _ _ => rfl
  · exact Ends.ite (fun _ => Ends.bind (ends_warnField W _ _) fun _ _ => Ends.pure fun _ _ => rfl) fun _ =>
      Ends.bind (ends_notEnumRest W _ _ _) fun _ h => Ends.pure h

theorem ends_notApplyConst (W : RefWorld c bad w B) (node notNode newNode : SchemaNode) (cc : ConstraintColl) :
    Ends (At B d) (fun _ => notApplyConst node notNode newNode cc) (fun r => SameWt r.1 newNode) := by
  have hs : SameWt { newNode with const := node.const } newNode := fun e v => by rw [wt_eq, wt_eq newNode]
  unfold notApplyConst
  dsimp only
  split
  · exact Ends.pure hs
  · exact Ends.ite (fun _ => Ends.bind (ends_warnField W _ _) fun _ _ => Ends.pure hs) fun _ =>
      Ends.ite (fun _ => Ends.bind (ends_warnField W _ _) fun _ _ => Ends.pure hs) fun _ => Ends.pure hs

/-- Applying a smaller negation, or applying nothing larger to a smaller schema, ends. -/
def NotEnds (bad : String → Nat) (B : PSt → Prop) (X Y : Nat) (rec : Nat → NotRec) : Prop :=
  ∀ d a b, Fine bad a → Fine bad b →
    (wt 1 (fun _ => 0) b < Y ∨ wt 1 (fun _ => 0) b ≤ Y ∧ wt 1 (fun _ => 0) a < X) →
    Ends (At B d) (fun k => rec k a b) (fun r => Fine bad r.1)

section
variable {rec : Nat → NotRec} {X Y : Nat}

theorem ends_notSubNode (W : RefWorld c bad w B) (h : NotEnds bad B X Y rec) (scope : String) (a b : SchemaNode) (ha : Fine bad a)
    (hb : Fine bad b) (hs : wt 1 (fun _ => 0) b < Y ∨ wt 1 (fun _ => 0) b ≤ Y ∧ wt 1 (fun _ => 0) a < X) :
    Ends (At B d) (fun k => notSubNode (rec k) scope a b) (Fine bad) := by
  unfold notSubNode
  refine Ends.bind (ends_pushPath W _) fun _ _ => Ends.bind (h d a b ha hb hs) fun r hr =>
    Ends.bind (ends_popPath W _) fun _ _ => Ends.pure ?_
  have : wt 0 bad r.1 = 0 := hr
  show wt 0 bad _ = 0
  rw [wt_eq] at this ⊢
  exact this

theorem ends_notSubPtr (W : RefWorld c bad w B) (h : NotEnds bad B X Y rec) (scope : String) (a b : Option SchemaNode)
    (ha : wtO 0 bad a = 0) (hb : wtO 0 bad b = 0) (hX : wtO 1 (fun _ => 0) a ≤ X)
    (hY : wtO 1 (fun _ => 0) b ≤ Y) :
    Ends (At B d) (fun k => notSubPtr (rec k) scope a b) (fun r => wtO 0 bad r = 0) := by
  unfold notSubPtr
  refine Ends.ite (fun _ => Ends.pure rfl) fun hn => ?_
  refine Ends.bind (ends_notSubNode W h scope _ _ ?_ ?_ ?_) fun r hr => Ends.pure <| by simpa using hr
  · cases a with
    | none => exact Fine.default
    | some a => exact by simpa [getZeroIfNil] using ha
  · cases b with
    | none => exact Fine.default
    | some b => exact by simpa [getZeroIfNil] using hb
  · cases b with
    | some b =>
      left
      simp only [wtO_some] at hY
      simp only [getZeroIfNil]; omega
    | none =>
      cases a with
      | none => exact absurd ⟨rfl, rfl⟩ hn
      | some a =>
        right
        simp only [wtO_some] at hX
        simp only [getZeroIfNil, wt_default]; omega

theorem ends_notItems (W : RefWorld c bad w B) (h : NotEnds bad B X Y rec) (a b : Option (ItemsData SchemaNode))
    (ha : wtOI 0 bad a = 0) (hb : wtOI 0 bad b = 0) (hX : wtOI 1 (fun _ => 0) a ≤ X)
    (hY : wtOI 1 (fun _ => 0) b ≤ Y) :
    Ends (At B d) (fun k => notItems (rec k) a b) (fun r => wtOI 0 bad r = 0) := by
  unfold notItems
  cases b with
  | none => exact Ends.pure ha
  | some nn =>
    have hz : wtOI 0 bad (some (getZeroIfNil a {})) = 0 := by
      cases a with
      | none => rfl
      | some a => exact ha
    have hzX : wtOI 1 (fun _ => 0) (some (getZeroIfNil a {})) ≤ X := by
      cases a with
      | none => exact Nat.zero_le _
      | some a => exact hX
    dsimp only
    generalize getZeroIfNil a {} = n at *
    obtain ⟨nd, nl, nb⟩ := n
    obtain ⟨bd, bl, bb⟩ := nn
    dsimp only
    simp only [wtOI_some] at hb hY hz hzX
    refine Ends.ite (fun _ => Ends.bind (ends_warnField W _ _) fun _ _ => Ends.pure <| by simpa using hz) fun _ =>
      Ends.ite (fun _ => Ends.pure <| by simpa using hz) fun _ => Ends.warnThen W <|
      Ends.ite (fun _ => Ends.pure rfl) fun hn => ?_
    refine Ends.bind (ends_notSubNode W h _ _ _ ?_ ?_ ?_) fun r hr => Ends.pure ?_
    · cases nd with
      | none => exact Fine.default
      | some x => exact by have := hz ; simp at this; exact this.1
    · cases bd with
      | none => exact Fine.default
      | some x => exact by have := hb ; simp at this; exact this.1
    · cases bd with
      | some b =>
        left
        simp only [wtO_some] at hY
        simp only [getZeroIfNil]; omega
      | none =>
        cases nd with
        | none => exact absurd ⟨rfl, rfl⟩ hn
        | some a =>
          right
          simp only [wtO_some] at hzX
          simp only [getZeroIfNil, wt_default]; omega
    · have := hr
      simpa using this

theorem ends_notOrFalse (W : RefWorld c bad w B) (h : NotEnds bad B X Y rec) (scope : String) (a b : Option (NodeOrFalse SchemaNode))
    (ha : wtOF 0 bad a = 0) (hb : wtOF 0 bad b = 0) (hX : wtOF 1 (fun _ => 0) a ≤ X)
    (hY : wtOF 1 (fun _ => 0) b ≤ Y) :
    Ends (At B d) (fun k => notOrFalse (rec k) scope a b) (fun r => wtOF 0 bad r = 0) := by
  unfold notOrFalse
  refine Ends.ite (fun _ => Ends.pure rfl) fun hn => ?_
  have hz : wtO 0 bad (getZeroIfNil a {}).schema = 0 := by
    cases a with
    | none => rfl
    | some a => have := ha ; simpa [getZeroIfNil] using this
  have hz' : wtO 0 bad (getZeroIfNil b {}).schema = 0 := by
    cases b with
    | none => rfl
    | some a => have := hb ; simpa [getZeroIfNil] using this
  have hY' : wt 1 (fun _ => 0) (getZeroIfNil (getZeroIfNil b {}).schema {}) < Y ∨
      wt 1 (fun _ => 0) (getZeroIfNil (getZeroIfNil b {}).schema {}) ≤ Y ∧
        wt 1 (fun _ => 0) (getZeroIfNil (getZeroIfNil a {}).schema {}) < X := by
    cases b with
    | some b =>
      obtain ⟨bs, bf⟩ := b
      left
      simp only [wtOF_some] at hY
      cases bs with
      | none => simp only [getZeroIfNil, wt_default]; omega
      | some x => simp only [getZeroIfNil]; simp only [wtO_some] at hY; omega
    | none =>
      cases a with
      | none => exact absurd ⟨rfl, rfl⟩ hn
      | some a =>
        obtain ⟨as, af⟩ := a
        right
        simp only [wtOF_some] at hX
        cases as with
        | none => simp only [getZeroIfNil, wt_default]; omega
        | some x => simp only [getZeroIfNil, wt_default]; simp only [wtO_some] at hX; omega
  dsimp only
  generalize getZeroIfNil a {} = n at *
  generalize getZeroIfNil b {} = nn at *
  refine Ends.ite (fun _ => Ends.bind (ends_warnField W _ _) fun _ _ => Ends.pure <| by simpa using hz) fun _ =>
    Ends.ite (fun _ => Ends.pure <| by simpa using hz) fun _ => ?_
  refine Ends.bind (ends_notSubNode W h _ _ _ ?_ ?_ hY') fun r hr => Ends.pure ?_
  · cases hx : n.schema with
    | none => exact Fine.default
    | some x => exact by have := hz ; rw [hx] at this; simpa [getZeroIfNil] using this
  · cases hx : nn.schema with
    | none => exact Fine.default
    | some x => exact by have := hz' ; rw [hx] at this; simpa [getZeroIfNil] using this
  · have := hr
    simpa using this

theorem getIndex_cases (l : List SchemaNode) (i : Nat) (x : SchemaNode) :
    (i < l.length ∧ getIndexOrDefault l i x ∈ l) ∨ (l.length ≤ i ∧ getIndexOrDefault l i x = x) := by
  unfold getIndexOrDefault goLen
  by_cases hi : i < l.length
  · left
    refine ⟨hi, ?_⟩
    rw [if_neg (by omega)]
    simp [hi]
  · right
    refine ⟨by omega, ?_⟩
    rw [if_pos (by omega)]

theorem ends_notPrefixLoop (W : RefWorld c bad w B) (h : NotEnds bad B X Y rec) (l nl : List SchemaNode) (extra : SchemaNode)
    (hl : wtL 0 bad l = 0) (hnl : wtL 0 bad nl = 0) (he : Fine bad extra)
    (hX : wtL 1 (fun _ => 0) l ≤ X) (hY : wtL 1 (fun _ => 0) nl ≤ Y) : ∀ (n i : Nat), n + i ≤ max l.length nl.length →
    Ends (At B d) (fun k => notPrefixLoop (rec k) l nl extra n i) (fun r => wtL 0 bad r = 0) := by
  intro n
  induction n with
  | zero => intro i _; unfold notPrefixLoop; exact Ends.pure rfl
  | succ n ih =>
    intro i hi
    unfold notPrefixLoop
    have hfl : ∀ x ∈ l, Fine bad x := fun x hx => by
      have h1 := wtL_mem (e := 0) (w := bad) hx
      have h2 := hl
      omega
    have hfn : ∀ x ∈ nl, Fine bad x := fun x hx => by
      have h1 := wtL_mem (e := 0) (w := bad) hx
      have h2 := hnl
      omega
    refine Ends.bind (ends_notSubNode W h _ _ _ ?_ ?_ ?_) fun r hr => Ends.bind (ih (i + 1) (by omega)) fun t ht =>
      Ends.pure ?_
    · rcases getIndex_cases l i extra with ⟨_, hm⟩ | ⟨_, hm⟩
      · exact hfl _ hm
      · rw [hm]; exact he
    · rcases getIndex_cases nl i {} with ⟨_, hm⟩ | ⟨_, hm⟩
      · exact hfn _ hm
      · rw [hm]; exact Fine.default
    · rcases getIndex_cases nl i {} with ⟨_, hm⟩ | ⟨hge, hm⟩
      · left
        have := wtL_mem (e := 1) (w := fun _ => 0) hm
        omega
      · right
        rw [hm]
        refine ⟨Nat.zero_le _, ?_⟩
        rcases getIndex_cases l i extra with ⟨_, hm'⟩ | ⟨hge', _⟩
        · have := wtL_mem (e := 1) (w := fun _ => 0) hm'
          omega
        · exfalso
          have := le_max_iff.1 (show n + 1 + i ≤ max l.length nl.length from hi)
          omega
    · have h1 := hr
      have h2 := ht
      simp only [wtL_cons]
      omega

theorem ends_notPrefix (W : RefWorld c bad w B) (h : NotEnds bad B X Y rec) (a b : Option (List SchemaNode))
    (items : Option (ItemsData SchemaNode))
    (ha : wtOL 0 bad a = 0) (hb : wtOL 0 bad b = 0) (hi : wtOI 0 bad items = 0)
    (hX : wtOL 1 (fun _ => 0) a ≤ X) (hY : wtOL 1 (fun _ => 0) b ≤ Y) :
    Ends (At B d) (fun k => notPrefix (rec k) a b items) (fun r => wtOL 0 bad r = 0) := by
  unfold notPrefix
  refine Ends.ite (fun _ => Ends.pure rfl) fun hn => ?_
  dsimp only
  refine Ends.bind (ends_notPrefixLoop W h _ _ _ ?_ ?_ ?_ ?_ ?_ _ 0 (by omega)) fun r hr => Ends.pure hr
  · exact (wtOL_zero a).trans (ha)
  · exact (wtOL_zero b).trans (hb)
  · cases items with
    | none => exact Fine.default
    | some x =>
      obtain ⟨xn, xl, xb⟩ := x
      cases xn with
      | none => exact Fine.default
      | some y => exact by have := hi ; simp at this; exact this.1
  · rw [wtOL_zero]; exact hX
  · rw [wtOL_zero]; exact hY

theorem ends_resolveBool (a b : Option Bool) : Ends (At B d) (fun _ => resolveBool a b) (fun _ => True) := by
  unfold resolveBool
  split
  · exact Ends.pure trivial
  · exact Ends.ite (fun _ => Ends.fail) fun _ => Ends.pure trivial
  · exact Ends.pure trivial
  · exact Ends.pure trivial

theorem ends_limitContains (W : RefWorld c bad w B) (n : SchemaNode) :
    Ends (At B d) (fun _ => limitContains n) (fun r => SameWt r n) := by
  unfold limitContains
  split
  · refine Ends.ite (fun _ => Ends.bind (ends_warnField W _ _) fun _ _ => Ends.pure fun e v => ?_) fun _ => Ends.pure fun _ _ => rfl
    rw [wt_eq, wt_eq n]
  · exact Ends.pure fun _ _ => rfl

theorem fine_array {n : SchemaNode} {it : Option (ItemsData SchemaNode)} {u : Option Bool} {p : Option (List SchemaNode)}
    {un : Option (NodeOrFalse SchemaNode)} {co : Option SchemaNode} {e : Nat} {v : String → Nat} (h : wt e v n = 0)
    (h1 : wtOI e v it = 0) (h2 : wtOL e v p = 0) (h3 : wtOF e v un = 0) (h4 : wtO e v co = 0) :
    wt e v { n with items := it, uniqueItems := u, prefixItems := p, unevaluatedItems := un, contains := co } = 0 := by
  rw [wt_eq] at h ⊢
  simp only [Nat.add_eq_zero_iff] at h ⊢
  simp [h, h1, h2, h3, h4]

theorem ends_notApplyArray (W : RefWorld c bad w B) (node notNode newNode : SchemaNode)
    (h : NotEnds bad B (wt 1 (fun _ => 0) node) (wt 1 (fun _ => 0) notNode) rec)
    (h1 : Fine bad node) (h2 : Fine bad notNode) (h3 : Fine bad newNode) :
    Ends (At B d) (fun k => notApplyArray (rec k) node notNode newNode) (Fine bad) := by
  have z : ∀ {x y : Nat}, x ≤ y → y = 0 → x = 0 := fun h h' => by omega
  unfold notApplyArray
  refine Ends.bind (ends_boundsInt W _ _ _ _ _) fun b1 _ => Ends.bind (ends_boundsInt W _ _ _ _ _) fun b2 _ => ?_
  refine Ends.bind (ends_limitContains W _) fun n hn => ?_
  refine Ends.bind (ends_notItems W h _ _ (z (le_items node) (h1)) (z (le_items notNode) (h2))
    (le_items node) (le_items notNode)) fun items hi => ?_
  refine Ends.warnThen W <| Ends.bind (ends_resolveBool _ _) fun u _ => ?_
  refine Ends.bind (ends_notPrefix W h _ _ _ (z (le_prefixItems node) (h1)) (z (le_prefixItems notNode) (h2)) hi
    (le_prefixItems node) (le_prefixItems notNode)) fun pre hp => ?_
  refine Ends.bind (ends_notOrFalse W h _ _ _ (z (le_unevaluatedItems node) (h1))
    (z (le_unevaluatedItems notNode) (h2)) (le_unevaluatedItems node) (le_unevaluatedItems notNode)) fun un hun => ?_
  refine Ends.bind (ends_notSubPtr W h _ _ _ (z (le_contains node) (h1)) (z (le_contains notNode) (h2))
    (le_contains node) (le_contains notNode)) fun co hco => Ends.pure ?_
  have f3 : wt 0 bad n = 0 := by
    have hw : wt 0 bad newNode = 0 := h3
    rw [hn, wt_eq]
    rw [wt_eq] at hw
    exact hw
  exact fine_array f3 (hi) (hp) (hun) (hco)

theorem ends_notPropsLoop (W : RefWorld c bad w B) (h : NotEnds bad B X Y rec) (p q : List (String × SchemaNode))
    (hp : wtM 0 bad p = 0) (hq : wtM 0 bad q = 0) (hY : wtM 1 (fun _ => 0) q ≤ Y) :
    ∀ (l : List String) (acc : List (String × SchemaNode)), (wtM 0 bad acc = 0) →
    Ends (At B d) (fun k => notPropsLoop (rec k) p q l acc) (fun r => wtM 0 bad r = 0) := by
  intro l
  induction l with
  | nil => intro acc ha; unfold notPropsLoop; exact Ends.pure ha
  | cons x t ih =>
    intro acc ha
    unfold notPropsLoop
    have hins : ∀ n, Fine bad n → wtM 0 bad (insertKV acc x n) = 0 := fun n hn => by
      have h1 := wtM_insert_le (e := 0) (w := bad) acc x n
      have h2 := ha
      have h3 := hn
      omega
    have hpf : ∀ n, lookupKV p x = some n → Fine bad n := fun n hn => by
      have h1 := wtM_mem (e := 0) (w := bad) (lookupKV_mem hn)
      have h2 := hp
      omega
    cases hl : lookupKV q x with
    | none =>
      dsimp only
      cases hl' : lookupKV p x with
      | none => exact ih acc ha
      | some n => exact ih _ (hins n (hpf n hl'))
    | some np =>
      dsimp only
      refine Ends.bind (ends_notSubNode W h _ _ _ ?_ ?_ ?_) fun r hr => ih _ (hins r hr)
      · cases hl' : lookupKV p x with
        | none => exact Fine.default
        | some n => exact hpf n hl'
      · exact by
          have h1 := wtM_mem (e := 0) (w := bad) (lookupKV_mem hl)
          have h2 := hq
          omega
      · left
        have h1 := wtM_mem (e := 1) (w := fun _ => 0) (lookupKV_mem hl)
        omega

theorem ends_warnUnsupported (W : RefWorld c bad w B) (f : String) (b : Bool) :
    Ends (At B d) (fun _ => warnUnsupported f b) (fun _ => True) := by
  unfold warnUnsupported
  exact ends_when W _ _ _

theorem wtM_delete (m : List (String × SchemaNode)) (k : String) {e : Nat} {v : String → Nat} : wtM e v (deleteKV m k) ≤ wtM e v m := by
  unfold deleteKV
  induction m with
  | nil => simp
  | cons x t ih =>
    obtain ⟨a, b⟩ := x
    rw [List.filter_cons]
    split
    · simp only [wtM_cons]; omega
    · simp only [wtM_cons]; omega

theorem wtM_deletes (l : List String) {e : Nat} {v : String → Nat} : ∀ m : List (String × SchemaNode),
    wtM e v (l.foldl deleteKV m) ≤ wtM e v m := by
  induction l with
  | nil => intro m; exact Nat.le_refl _
  | cons x t ih => intro m; exact (ih _).trans (wtM_delete m x)

theorem fine_object {n : SchemaNode} {a b : Option Int} {pp pr : Option (List (String × SchemaNode))} {r : Option (List String)}
    {ap : Option (NodeOrFalse SchemaNode)} {e : Nat} {v : String → Nat} (h : wt e v n = 0) (h1 : wtOM e v pp = 0)
    (h2 : wtOM e v pr = 0) (h3 : wtOF e v ap = 0) :
    wt e v { n with minProperties := a, maxProperties := b, patternProperties := pp, additionalProperties := ap, required := r,
                    properties := pr } = 0 := by
  rw [wt_eq] at h ⊢
  simp only [Nat.add_eq_zero_iff] at h ⊢
  simp [h, h1, h2, h3]

theorem ends_notApplyObject (W : RefWorld c bad w B) (node notNode newNode : SchemaNode) (cc : ConstraintColl)
    (h : NotEnds bad B (wt 1 (fun _ => 0) node) (wt 1 (fun _ => 0) notNode) rec)
    (h1 : Fine bad node) (h2 : Fine bad notNode) (h3 : Fine bad newNode) :
    Ends (At B d) (fun k => notApplyObject (rec k) node notNode newNode cc) (fun r => Fine bad r.1) := by
  have z : ∀ {x y : Nat}, x ≤ y → y = 0 → x = 0 := fun h h' => by omega
  unfold notApplyObject
  refine Ends.bind (ends_boundsInt W _ _ _ _ _) fun b1 _ => ?_
  dsimp only
  refine Ends.bind (ends_notPropsLoop W h _ _ ((wtOM_zero _).trans (z (le_properties node) (h1)))
    ((wtOM_zero _).trans (z (le_properties notNode) (h2)))
    ((wtOM_zero _).le.trans (le_properties notNode)) _ _ rfl) fun merged hm => ?_
  refine Ends.bind (ends_warnUnsupported W _ _) fun _ _ => ?_
  refine Ends.bind (ends_notOrFalse W h _ _ _ (z (le_additionalProperties node) (h1))
    (z (le_additionalProperties notNode) (h2)) (le_additionalProperties node) (le_additionalProperties notNode))
    fun ap hap => Ends.pure ?_
  refine fine_object (h3) (z (le_patternProperties node) (h1)) ?_ (hap)
  have a1 := hm
  generalize nonConflicting (getZeroIfNil node.required []) (getZeroIfNil notNode.required []) = L
  have a5 := wtM_deletes (e := 0) (v := bad) L merged
  generalize List.foldl deleteKV merged L = M at *
  by_cases hM : 0 < M.length
  · rw [if_pos hM, wtOM_some]; exact z a5 a1
  · rw [if_neg hM]; exact z (le_properties newNode) (h3)

theorem ends_notUnsupported (W : RefWorld c bad w B) (n : SchemaNode) :
    Ends (At B d) (fun _ => notUnsupported n) (fun _ => True) := by
  unfold notUnsupported
  exact Ends.bind (ends_warnUnsupported W _ _) fun _ _ => Ends.bind (ends_warnUnsupported W _ _) fun _ _ =>
    Ends.bind (ends_warnUnsupported W _ _) fun _ _ => Ends.bind (ends_warnUnsupported W _ _) fun _ _ =>
    Ends.bind (ends_warnUnsupported W _ _) fun _ _ => Ends.bind (ends_warnUnsupported W _ _) fun _ _ =>
    Ends.bind (ends_warnUnsupported W _ _) fun _ _ => ends_warnUnsupported W _ _

theorem wt_notCopy {node newNode : SchemaNode} {e : Nat} {v : String → Nat} (h1 : wt e v node = 0) (h2 : wt e v newNode = 0) :
    wt e v (notCopy node newNode) = 0 := by
  have h3 : wtL e v node.not.toList = 0 := by
    have h1 := le_not node (e := e) (v := v)
    cases hx : node.not with
    | none => rfl
    | some x =>
      rw [hx] at h1
      simp only [wtO_some] at h1
      simp only [Option.toList_some, wtL_cons, wtL_nil]
      omega
  rw [wt_eq] at h1 h2
  rw [notCopy, wt_eq]
  simp only [Nat.add_eq_zero_iff] at h1 h2 ⊢
  simp [h1, h2, h3]

theorem fine_notCopy {node newNode : SchemaNode} (h1 : Fine bad node) (h2 : Fine bad newNode) : Fine bad (notCopy node newNode) :=
  wt_notCopy (h1) (h2)

theorem ends_notStep (W : RefWorld c bad w B) (node notNode : SchemaNode)
    (h : NotEnds bad B (wt 1 (fun _ => 0) node) (wt 1 (fun _ => 0) notNode) rec)
    (h1 : Fine bad node) (h2 : Fine bad notNode) :
    Ends (At B d) (fun k => notStep c (rec k) node notNode) (fun r => Fine bad r.1) := by
  unfold notStep
  split
  · exact Ends.bind (ends_addError W _) fun _ _ => Ends.pure Fine.default
  · rename_i t _
    refine Ends.bind (ends_notApplyString W _ _ _ _) fun r1 hr1 => ?_
    have hr1 : Fine bad r1.1 := (hr1 _ _).trans (by rw [wt_eq]; rfl)
    refine Ends.bind (ends_notApplyNumber W _ _ _ _) fun r2 hr2 => ?_
    have hr2 : Fine bad r2 := (hr2 _ _).trans (hr1)
    refine Ends.bind (ends_notApplyEnum W _ _ _ _) fun r3 hr3 => ?_
    have hr3 : Fine bad r3.1 := (hr3 _ _).trans (hr2)
    refine Ends.bind (ends_notApplyConst W _ _ _ _) fun r4 hr4 => ?_
    have hr4 : Fine bad r4.1 := (hr4 _ _).trans (hr3)
    refine Ends.bind (ends_notApplyArray W _ _ _ h h1 h2 hr4) fun r5 hr5 => ?_
    refine Ends.bind (ends_notApplyObject W _ _ _ _ h h1 h2 hr5) fun r6 hr6 => ?_
    exact Ends.bind (ends_notUnsupported W _) fun _ _ => Ends.pure (fine_notCopy h1 hr6)

end

theorem notEnds_notMerge (W : RefWorld c bad w B) : ∀ Y X, NotEnds bad B X Y (fun k => notMerge c k) := by
  intro Y
  induction Y with
  | zero =>
    intro X
    induction X with
    | zero => intro d a b _ _ h; omega
    | succ X ih =>
      intro d a b ha hb h
      refine Ends.shift ?_
      unfold notMerge
      refine ends_notStep W a b (fun d' a' b' ha' hb' h' => ih d' a' b' ha' hb' ?_) ha hb
      omega
  | succ Y ihY =>
    intro X
    induction X with
    | zero =>
      intro d a b ha hb h
      refine Ends.shift ?_
      unfold notMerge
      refine ends_notStep W a b (fun d' a' b' ha' hb' h' => ihY (wt 1 (fun _ => 0) a) d' a' b' ha' hb' ?_) ha hb
      omega
    | succ X ihX =>
      intro d a b ha hb h
      refine Ends.shift ?_
      unfold notMerge
      refine ends_notStep W a b (fun d' a' b' ha' hb' h' => ?_) ha hb
      by_cases hb1 : wt 1 (fun _ => 0) b' ≤ Y
      · by_cases hb2 : wt 1 (fun _ => 0) b' < Y
        · exact ihY 0 d' a' b' ha' hb' (by omega)
        · exact ihY (wt 1 (fun _ => 0) a' + 1) d' a' b' ha' hb' (by omega)
      · exact ihX d' a' b' ha' hb' (by omega)

theorem ends_notMerge (W : RefWorld c bad w B) (a b : SchemaNode) (ha : Fine bad a) (hb : Fine bad b) :
    Ends (At B d) (fun k => notMerge c k a b) (fun r => Fine bad r.1) :=
  notEnds_notMerge W (wt 1 (fun _ => 0) b + 1) 0 d a b ha hb (by omega)

theorem ends_applyNots (W : RefWorld c bad w B) : ∀ (l : List SchemaNode) (n : SchemaNode) (cc : ConstraintColl),
    Fine bad n → (∀ x ∈ l, Fine bad x) → Ends (At B d) (fun k => applyNots c k n cc l) (fun r => Fine bad r.1) := by
  intro l
  induction l with
  | nil => intro n cc hn _; unfold applyNots; exact Ends.pure hn
  | cons x t ih =>
    intro n cc hn hl
    unfold applyNots
    exact Ends.bind (ends_notMerge W n x hn (hl x (List.mem_cons_self ..))) fun r hr =>
      ih r.1 _ hr fun y hy => hl y (List.mem_cons_of_mem _ hy)

/-- The inner schemas of double negations weigh less than the negations, by one each. -/
theorem ends_partitionNots (W : RefWorld c bad w B) : ∀ (l : List SchemaNode) (i : Nat), (∀ x ∈ l, Fine bad x) →
    Ends (At B d) (fun k => partitionNots c k i l)
      (fun r => (∀ x ∈ r.1, Fine bad x) ∧ (∀ x ∈ r.2, Fine bad x) ∧ wtL 1 w r.2 ≤ wtSum 1 w l ∧
        (r.1.length = 0 → r.2.length = l.length)) := by
  intro l
  induction l with
  | nil => intro i _; unfold partitionNots; exact Ends.pure ⟨nofun, nofun, Nat.le_refl _, fun _ => rfl⟩
  | cons x t ih =>
    intro i hl
    have hx := hl x (List.mem_cons_self ..)
    have ih := ih (i + 1) fun y hy => hl y (List.mem_cons_of_mem _ hy)
    unfold partitionNots
    refine Ends.bind (ends_pushPath W _) fun _ _ => Ends.bind (ends_mergeNodes W _ (by simpa using hx)) fun flat hf =>
      Ends.bind (ends_popPath W _) fun _ _ => ?_
    simp only [wtSum_cons, wt_empty, wtSum_nil, Nat.zero_add, Nat.add_zero] at hf
    have hff : Fine bad flat := Nat.le_zero.1 ((hf _ _ (.inl ⟨rfl, rfl⟩)).trans (hx).le)
    cases hn : flat.not with
    | none =>
      dsimp only
      refine Ends.bind ih fun r hr => Ends.pure ⟨?_, hr.2.1, ?_, fun h => absurd h (by simp)⟩
      · intro y hy
        rcases List.mem_cons.1 hy with rfl | hy
        · exact hff
        · exact hr.1 y hy
      · have := hr.2.2.1
        simp only [wtSum_cons]; omega
    | some inner =>
      dsimp only
      have hw : ∀ e v, e + wt e v inner ≤ wt e v flat := fun e v => by
        rw [wt_eq flat, hn, wtO_some]; omega
      have hfi : Fine bad inner := by
        have := hff
        have := hw 0 bad
        omega
      refine Ends.bind (ends_pushPath W _) fun _ _ => Ends.bind (ends_mergeNodes W _ (by simpa using hfi)) fun fi hfi' =>
        Ends.bind (ends_popPath W _) fun _ _ => Ends.bind ih fun r hr => Ends.pure ⟨hr.1, ?_, ?_, ?_⟩
      · intro y hy
        rcases List.mem_cons.1 hy with rfl | hy
        · have := hfi' _ _ (.inl ⟨rfl, rfl⟩)
          have : wt 0 bad inner = 0 := hfi
          simp only [wtSum_cons, wt_empty, wtSum_nil] at *
          omega
        · exact hr.2.1 y hy
      · have h1 := hr.2.2.1
        have h2 := hfi' 1 w (.inr ⟨rfl, rfl⟩)
        have h3 := hw 1 w
        have h4 := hf 1 w (.inr ⟨rfl, rfl⟩)
        simp only [wtSum_cons, wt_empty, wtSum_nil, wtL_cons] at *
        omega
      · intro h
        simp [hr.2.2.2 h]

end

end Chaff
