import Verif.Props.Not
import Verif.Props.Valid
import Verif.Lemmas.NotKeep
import Verif.Spec.Keep
/-!
# C76: a negation keeps the other keywords of its schema
-/

namespace Chaff
open Comp
variable {c : PEnv}

/-! ## Bounds -/

theorem minToNil_ge {x p : Int} (hp : -2147483637 < p) (h : x ≤ p) : ∃ y, minToNil p = some y ∧ x ≤ y := by
  unfold minToNil notMinInt
  rw [if_neg (by omega)]
  exact ⟨p, rfl, h⟩

theorem maxToNil_le {x p : Int} (hp : p < 2147483636) (h : p ≤ x) : ∃ y, maxToNil p = some y ∧ y ≤ x := by
  unfold maxToNil notMaxInt
  rw [if_neg (by omega)]
  exact ⟨p, rfl, h⟩

theorem minToNil_one {p : Int} (h : 1 ≤ p ∨ p ≤ -2147483637) : ∀ y, minToNil p = some y → 1 ≤ y := by
  intro y hy
  unfold minToNil notMinInt at hy
  split at hy
  · cases hy
  · cases hy; omega

theorem bounds_kept {min max notMin notMax a b : Option Int}
    (h1 : Ordinary min) (h2 : Ordinary max) (h3 : Ordinary notMin) (h4 : Ordinary notMax)
    (h : resolveBoundsInt min max notMin notMax = ((a, b), false)) :
    (∀ x, min = some x → ∃ y, a = some y ∧ x ≤ y) ∧ (∀ x, max = some x → ∃ y, b = some y ∧ y ≤ x) ∧
    (min = none → (∀ k, notMax = some k → 0 ≤ k) → ∀ y, a = some y → 1 ≤ y) := by
  rcases min with _ | x1 <;> rcases max with _ | x2 <;> rcases notMin with _ | y1 <;> rcases notMax with _ | y2 <;>
    simp only [Ordinary, Option.some.injEq, forall_eq', reduceCtorEq, false_implies, implies_true] at h1 h2 h3 h4 <;>
    try replace h1 := bound_within h1
  all_goals try replace h2 := bound_within h2
  all_goals try replace h3 := bound_within h3
  all_goals try replace h4 := bound_within h4
  all_goals simp only [resolveBoundsInt, getZeroIfNil, addIfNotNilInt, notMinInt, notMaxInt, Option.map,
    Option.some.injEq, forall_eq', reduceCtorEq, false_implies, implies_true, true_and, and_true, forall_const] at h ⊢
  all_goals first
    | obtain ⟨p, q, rfl, rfl, h⟩ := resolveBoundsInt_core _ _ _ _ _ _ _ h
    | obtain ⟨⟨rfl, rfl⟩, -⟩ : (_ ∧ _) ∧ _ := by simpa only [Prod.mk.injEq] using h
  all_goals repeat' apply And.intro
  all_goals first
    | exact ⟨_, rfl, le_refl _⟩
    | exact minToNil_ge (by omega) (by omega)
    | exact maxToNil_le (by omega) (by omega)
    | (intro y hy; cases hy; done)
    | (intro _ y hy; cases hy; done)
    | (intro y hy; exact minToNil_one (by omega) y hy)
    | (intro hk y hy; exact minToNil_one (by omega) y hy)

theorem infinitesimal_le_one {F : FP} (hF : F.Lawful) : infinitesimal F ≤ 1 := by
  have := hF.mono (1 / 10 ^ 14) ((1 : Int) : Rat) (by norm_num)
  rw [hF.int 1 (by norm_num)] at this
  unfold infinitesimal; push_cast at this; exact this

/-- A number in the computed range satisfies the bounds of the schema. -/
theorem own_range {F : FP} (hF : F.Lawful) (hi : 0 < infinitesimal F) {node notNode n0 : SchemaNode}
    (h : ∀ b ∈ [node.minimum, node.maximum, node.exclusiveMinimum, node.exclusiveMaximum,
      notNode.minimum, notNode.maximum, notNode.exclusiveMinimum, notNode.exclusiveMaximum], SteppedExactly F b)
    (hn : (resolveBoundsNodes F (notOffset F n0) node notNode).noRange = false) {q : Rat}
    (hq : (resolveBoundsNodes F (notOffset F n0) node notNode).Has q) :
    InBounds node.minimum node.maximum node.exclusiveMinimum node.exclusiveMaximum q := by
  have off0 : 0 < notOffset F n0 := by unfold notOffset; split <;> [norm_num; exact hi]
  have off1 : notOffset F n0 ≤ 1 := by unfold notOffset; split <;> [norm_num; exact infinitesimal_le_one hF]
  have hx : ∀ b, SteppedExactly F b → ExactNear F (notOffset F n0) b := by
    intro b hb x hx k hk
    obtain ⟨-, e⟩ := hb x hx
    obtain ⟨e1, e2⟩ := e k hk
    unfold notOffset; split
    · simpa using e1
    · exact e2
  have hs : ∀ b, SteppedExactly F b → Small51 b := fun b hb x hx => (hb x hx).1
  by_cases hset : notNode.minimum.isSome ∨ notNode.maximum.isSome ∨ notNode.exclusiveMinimum.isSome ∨
      notNode.exclusiveMaximum.isSome
  · exact (negatedRange_sound hF off0 off1 (fun b hb => ⟨hs b (h b hb), hx b (h b hb)⟩) hset q hn hq).1
  · simp only [not_or, Option.not_isSome_iff_eq_none] at hset
    obtain ⟨e1, e2, e3, e4⟩ := hset
    have e : resolveBoundsNodes F (notOffset F n0) node notNode =
        { min := lowerOf F (notOffset F n0) node.minimum node.exclusiveMinimum
          max := upperOf F (notOffset F n0) node.maximum node.exclusiveMaximum } := by
      unfold resolveBoundsNodes; rw [e1, e2, e3, e4]; rfl
    rw [e] at hq
    rcases hq with hq | ⟨hq, -⟩
    · have plus : ∀ e, node.exclusiveMinimum = some e → F.rnd (e + notOffset F n0) = e + notOffset F n0 := by
        intro e he; have := hx _ (h node.exclusiveMinimum (by simp)) e he 1 (by norm_num); simpa using this
      have minus : ∀ e, node.exclusiveMaximum = some e → F.rnd (e - notOffset F n0) = e - notOffset F n0 := by
        intro e he
        have := hx _ (h node.exclusiveMaximum (by simp)) e he (-1) (by norm_num)
        simpa [sub_eq_add_neg] using this
      refine ⟨fun x hx => ?_, fun x hx => ?_, fun x hx => ?_, fun x hx => ?_⟩
      · rcases lowerOf_cases (a := node.minimum) plus with ⟨e, e1, e2⟩ | ⟨y, e, g, -, -⟩
        · rw [e1] at hx; cases hx
        · exact le_trans (g x hx) (hq.minimum y e)
      · rcases upperOf_cases (a := node.maximum) minus with ⟨e, e1, e2⟩ | ⟨y, e, g, -, -⟩
        · rw [e1] at hx; cases hx
        · exact le_trans (hq.maximum y e) (g x hx)
      · rcases lowerOf_cases (a := node.minimum) plus with ⟨e, e1, e2⟩ | ⟨y, e, -, g, -⟩
        · rw [e2] at hx; cases hx
        · have := hq.minimum y e; have := g x hx; linarith
      · rcases upperOf_cases (a := node.maximum) minus with ⟨e, e1, e2⟩ | ⟨y, e, -, g, -⟩
        · rw [e2] at hx; cases hx
        · have := hq.maximum y e; have := g x hx; linarith
    · simp at hq

theorem applyMultiples_zero {F : FP} {b : FloatBounds} {mo : Rat} {node nn r : SchemaNode} {s s' : PSt}
    (h : applyMultiples F b mo 0 node nn s = .ok r s') :
    r.minimum = nn.minimum ∧ r.maximum = nn.maximum ∧ (mo ≠ 0 → r.multipleOf = node.multipleOf) := by
  unfold applyMultiples at h
  split at h
  · rename_i hm
    obtain ⟨rfl, -⟩ := pure_ok.1 h; exact ⟨rfl, rfl, fun e => absurd hm.1 e⟩
  · rw [if_neg (by simp), if_neg (by simp), if_neg (by simp), if_neg (by simp)] at h
    obtain ⟨rfl, -⟩ := pure_ok.1 h; exact ⟨rfl, rfl, fun _ => rfl⟩

theorem num_same {q : Rat} {x : JVal} (h : SameJson x (.num q)) : x = .num q := by
  have := h.symm.jeq (by constructor)
  cases x <;> simp [JVal.jeq] at this
  rw [this]

/-- The number keywords of the schema hold of a number that meets those of the result. -/
theorem numbers_kept {k : Nat} {node notNode n : SchemaNode} {cc : ConstraintColl} {s s' : PSt} (hF : c.fp.Lawful)
    (hi : 0 < infinitesimal c.fp) (h : notMerge c k node notNode s = .ok (n, cc) s')
    (hq : s'.errors = s.errors) (hc : NumbersClear c.fp node notNode) {q : Rat} (ha : (numKeywords n).Accepts q)
    (he : ∀ l, n.enum = some l → ∃ x ∈ l, SameJson x (.num q)) : (numKeywords node).Accepts q := by
  have finish : InBounds node.minimum node.maximum node.exclusiveMinimum node.exclusiveMaximum q →
      (∀ m, node.multipleOf = some m → IsMultiple q m) → (numKeywords node).Accepts q :=
    fun i j => ⟨i.minimum, i.maximum, i.exclusiveMinimum, i.exclusiveMaximum, j⟩
  by_cases hz : effNotMultipleOf notNode = 0
  · have R := notMerge_inv h (by rw [hq])
    obtain ⟨n0, n1, n2, cc0, cc1, s0, s1, s2, s3, r3, et, en, -, h1, hq1, emin, emax, emo, -⟩ := R.number
    obtain ⟨hn, e1, e2⟩ := notApplyNumber_plain h1 hq1 hz
    have emul : ∀ m, node.multipleOf = some m → n1.multipleOf = some m := by
      intro m hm
      have hpos := hc.multipleOf m hm
      have hne : effMultipleOf node notNode n0 ≠ 0 := by
        have : (m : Rat) ≠ 0 := by rintro rfl; norm_num at hpos
        unfold effMultipleOf; rw [hm]; simp [getZeroIfNil, this]
      unfold notApplyNumber at h1
      dsimp only at h1
      rw [hz] at h1
      split at h1
      · obtain ⟨u, s9, h9, h1⟩ := bind_ok.1 h1
        rw [(applyMultiples_zero h1).2.2 hne]; exact hm
      · rw [(applyMultiples_zero h1).2.2 hne]; exact hm
    refine finish (own_range hF hi hc.bounds hn (Or.inl ⟨?_, ?_, by simp, by simp⟩)) ?_
    · intro x hx; exact ha.minimum x (by show n.minimum = _; rw [emin, e1]; exact hx)
    · intro x hx; exact ha.maximum x (by show n.maximum = _; rw [emax, e2]; exact hx)
    · intro m hm
      exact ha.multipleOf m (by show n.multipleOf = _; rw [emo]; exact emul m hm)
  · have hx : c.fp = FP.exact ∧ node.enum = none := by
      rcases hc.factor with ⟨e1, e2⟩ | e
      · exfalso
        apply hz
        unfold effNotMultipleOf
        have e3 : getZeroIfNil notNode.multipleOf 0 = 0 := by
          rw [← e1]; cases notNode.multipleOf <;> rfl
        have e4 : nodeTypeContains notNode.type "integer" = false := by
          unfold nodeTypeContains
          cases ht : notNode.type with
          | none => rfl
          | some t => obtain ⟨a, b⟩ := e2 t ht; simp [a, b]
        rw [e4, e3]; simp
      · exact e
    obtain ⟨l, n0, et, ee, hn, hch⟩ := not_multiples_choice h hq _ rfl hz hx.2
    obtain ⟨x, hx1, hx2⟩ := he _ ee
    obtain ⟨y, hy, rfl⟩ := List.mem_map.1 hx1
    have := num_same hx2
    cases this
    have hl : l ≠ [] := by rintro rfl; cases hy
    set b := resolveBoundsNodes c.fp (notOffset c.fp n0) node notNode with hb
    set mm := (if effMultipleOf node notNode n0 = 0 then infinitesimal c.fp else effMultipleOf node notNode n0) with hmm
    have hmul : ∀ m, node.multipleOf = some m → mm = m := by
      intro m hm
      have hpos := hc.multipleOf m hm
      have hne : (m : Rat) ≠ 0 := by rintro rfl; norm_num at hpos
      have : effMultipleOf node notNode n0 = m := by
        unfold effMultipleOf; rw [hm]; simp [getZeroIfNil, hne]
      rw [hmm, this, if_neg hne]
    have hmp : 0 < mm := by
      rcases hm : node.multipleOf with _ | m
      · have : effMultipleOf node notNode n0 = 1 ∨ effMultipleOf node notNode n0 = 0 := by
          unfold effMultipleOf; rw [hm]; simp only [getZeroIfNil]
          split <;> simp
        rw [hmm]
        rcases this with e | e
        · rw [e]; norm_num
        · rw [if_pos e]; exact hi
      · rw [hmul m hm]
        have := hc.multipleOf m hm
        exact lt_trans (by norm_num) this
    have both : ∀ lo hi : Option Rat, computeMultiples c.fp (getZeroIfNil lo (lowerBound c.fp))
        (getZeroIfNil hi (upperBound c.fp)) mm (effNotMultipleOf notNode) = some l →
        InBounds lo hi none none q ∧ (1 / 10 ^ 14 < mm → IsMultiple q mm) := by
      intro lo hi' hcm
      obtain ⟨-, -, a⟩ := C41_enumeration_sound hz hcm
      rw [hx.1] at hcm
      obtain ⟨b1, b2⟩ := C41_enumeration_in_range hmp hcm q hy
      refine ⟨⟨fun x hx => ?_, fun x hx => ?_, by simp, by simp⟩, b2⟩
      · subst hx; exact b1
      · have := (a q hy).1; subst hx; exact this
    rcases chooseMultiples_some hch hl with hcm | ⟨hsome, hcm⟩
    · obtain ⟨i1, i2⟩ := both _ _ hcm
      refine finish (own_range hF hi hc.bounds hn (Or.inl i1)) ?_
      intro m hm
      rw [← hmul m hm]
      exact i2 (by rw [hmul m hm]; exact hc.multipleOf m hm)
    · obtain ⟨i1, i2⟩ := both _ _ hcm
      refine finish (own_range hF hi hc.bounds hn (Or.inr ⟨hsome, i1⟩)) ?_
      intro m hm
      rw [← hmul m hm]
      exact i2 (by rw [hmul m hm]; exact hc.multipleOf m hm)

/-! ## Types and listed values -/

theorem types_kept {node notNode n : SchemaNode} {t : MultipleType} (ht : resolveType node notNode = .ok t)
    (hn : n.type = some t) (hw : TypeWritten node) {v : JVal} (h : TypeOk n v) : TypeOk node v := by
  intro t' ht'
  unfold resolveType at ht
  dsimp only at ht
  set cand := (getNodeTypes node false).filter
    (fun t => ! (decide (t ∈ expandNotTypes (getNodeTypes notNode true)) && ! notNodeHasValueConstraints notNode)) with hc
  split at ht
  · cases ht
  · rename_i hl
    injection ht with et
    have key : ∃ x ∈ cand, HasType x v := by
      have := h t hn
      rw [← et] at this
      rcases hcd : cand with _ | ⟨x, _ | ⟨y, l⟩⟩
      · rw [hcd] at hl; exact absurd rfl hl
      · rw [hcd] at this; exact ⟨x, by simp, this⟩
      · rw [hcd] at this; exact this
    obtain ⟨x, hx, hv⟩ := key
    have hx' : x ∈ getNodeTypes node false := List.mem_of_mem_filter hx
    have w := hw t' ht'
    unfold getNodeTypes at hx'
    rw [ht'] at hx'
    dsimp only at hx'
    cases hm : t'.multiple with
    | none =>
      rw [hm] at w
      rw [if_pos w] at hx'
      rw [List.mem_singleton.1 hx'] at hv
      exact hv
    | some l =>
      rw [hm] at w hx'
      rw [if_neg (by simp [w.1]), if_pos (by simpa using w.2)] at hx'
      exact ⟨x, hx', hv⟩

theorem enum_kept {a b n : SchemaNode} {cc : ConstraintColl} {r : SchemaNode × ConstraintColl} {s s' : PSt}
    (h : notApplyEnum a b n cc s = .ok r s') (hq : s'.errors.length = s.errors.length) {l : List JVal}
    (ha : a.enum = some l) (hl : l ≠ []) : ∃ l', r.1.enum = some l' ∧ ∀ x ∈ l', x ∈ l := by
  unfold notApplyEnum at h
  dsimp only at h
  rw [if_neg (by simp [ha]), if_neg (by rw [ha]; simpa [getZeroIfNil] using fun e => absurd e hl)] at h
  obtain ⟨m, s1, h1, h2⟩ := bind_ok.1 h
  obtain ⟨rfl, rfl⟩ := pure_ok.1 h2
  have e := (notEnumRest_inv h1 hq).1
  refine ⟨_, e, fun x hx => ?_⟩
  rw [ha] at hx
  exact List.mem_of_mem_filter hx

/-! ## The whole negation -/

/-- Dropping constraints set by the parser. -/
theorem fits_fewer {pat : String → String → Prop} {m : SchemaNode} {cc' : ConstraintColl} {v : JVal}
    (h : Fits pat { m with constraints := some cc' } v)
    (hm : ∀ x, m.constraints = some x → ∀ k ∈ x.mustNotHave, k ∈ cc'.mustNotHave) : Fits pat m v := by
  generalize hn : { m with constraints := some cc' } = n at h
  cases h with
  | intro _ _ found lo ab pr pp ad px it cs ct =>
    subst hn
    have ab' : ∀ m' cc k x, v = .obj m' → m.constraints = some cc → k ∈ cc.mustNotHave → (k, x) ∉ m' :=
      fun m' cc k x hv hc hk => ab m' cc' k x hv rfl (hm cc hc k hk)
    exact .intro m v found ⟨lo.type, lo.enum, lo.const, lo.number, lo.minLength, lo.maxLength, lo.pattern, lo.minItems,
      lo.maxItems, lo.uniqueItems, lo.itemsFalse, lo.minProperties, lo.maxProperties, lo.required, lo.additionalFalse⟩
      ab' pr pp ad px it cs ct

theorem getIndexOrDefault_lt {α : Type} {l : List α} {i : Nat} {x e : α} (h : l[i]? = some x) :
    getIndexOrDefault l (i : Int) e = x := by
  have hi : i < l.length := (List.getElem?_eq_some_iff.1 h).1
  unfold getIndexOrDefault goLen
  rw [if_neg (by omega)]
  simp [h]

theorem getIndexOrDefault_getD {α : Type} {l : List α} {i : Nat} {e : α} :
    getIndexOrDefault l (i : Int) e = (l[i]?).getD e := by
  unfold getIndexOrDefault goLen
  split
  · rename_i h
    rw [List.getElem?_eq_none (by omega)]; rfl
  · simp

theorem prefix_kid {rec : NotRec} (hrec : ∀ a b, Keeps c (rec a b)) {node notNode n : Option (List SchemaNode)}
    {items : Option (ItemsData SchemaNode)} (h : Quietly (notPrefix rec node notNode items) n) :
    (n.getD []).length = max (node.getD []).length (notNode.getD []).length ∧
    ∀ (i : Nat) sub, (getZeroIfNil node [])[i]? = some sub → ∃ l m, n = some l ∧ l[i]? = some m ∧
      SubResult rec sub (((getZeroIfNil notNode [])[i]?).getD {}) m := by
  have gz : ∀ o : Option (List SchemaNode), getZeroIfNil o [] = o.getD [] := by intro o; cases o <;> rfl
  obtain ⟨s, s', h, hq⟩ := h
  unfold notPrefix at h
  split at h
  · rename_i hn
    obtain ⟨rfl, -⟩ := pure_ok.1 h
    simp only [Option.isNone_iff_eq_none] at hn
    obtain ⟨rfl, rfl⟩ := hn
    exact ⟨rfl, fun i sub hs => by simp [getZeroIfNil] at hs⟩
  · dsimp only at h
    obtain ⟨r, s1, h1, h⟩ := bind_ok.1 h
    obtain ⟨rfl, rfl⟩ := pure_ok.1 h
    obtain ⟨e, hj⟩ := notPrefixLoop_kid hrec _ _ _ _ _ h1 hq
    rw [gz, gz] at e
    refine ⟨by simpa using e, fun i sub hs => ?_⟩
    have hi : i < (getZeroIfNil node []).length := (List.getElem?_eq_some_iff.1 hs).1
    obtain ⟨m, e1, e2⟩ := hj i (by omega)
    rw [Nat.zero_add, getIndexOrDefault_lt hs, getIndexOrDefault_getD] at e2
    exact ⟨r, m, rfl, e1, e2⟩

theorem getZero_some {α : Type} {o : Option (List α)} {p : List α} (h : o = some p) : getZeroIfNil o [] = p := by
  subst h; rfl

theorem keep_all {pat : String → String → Prop} (hF : c.fp.Lawful) (hi : 0 < infinitesimal c.fp) : ∀ (k : Nat)
    (node notNode n : SchemaNode) (cc : ConstraintColl) (s s' : PSt), notMerge c k node notNode s = .ok (n, cc) s' →
    s'.errors.length = s.errors.length → Separable c.fp node notNode → ∀ v : JVal, Fits pat n v →
    (∀ m k x, v = .obj m → k ∈ cc.mustNotHave → (k, x) ∉ m) → Fits pat node v := by
  intro k
  induction k with
  | zero => intro node notNode n cc s s' h; simp [notMerge] at h
  | succ k ih =>
    intro node notNode n cc s s' h hq hsep v hfit habs
    have R := notMerge_inv h hq
    have K := notStep_kids (keeps_notMerge k) h hq
    have hq' : s'.errors = s.errors := by
      obtain ⟨l, hl, -⟩ := (keeps_notMerge (c := c) (k + 1) node notNode s _ s' h).errors
      have : l = [] := by rw [hl] at hq; simpa using hq
      rw [hl, this]; rfl
    cases hsep with
    | intro _ _ ty en co fo nu na po sp sa sx si sc =>
    -- sub-schemas
    have sub : ∀ {a b x : SchemaNode} {w : JVal}, SubResult (notMerge c k) a b x → Separable c.fp a b → Fits pat x w →
        Fits pat a w := by
      intro a b x w hsub hs hx
      obtain ⟨m, cc', s1, s1', h1, hq1, rfl⟩ := hsub
      have hmc : m.constraints = a.constraints := by
        cases k with
        | zero => simp [notMerge] at h1
        | succ k => exact (notStep_kids (keeps_notMerge k) h1 hq1).constraints
      have hin : ∀ z, z ∈ cc'.mustNotHave ∨ (∃ y, a.constraints = some y ∧ z ∈ y.mustNotHave) →
          z ∈ (match a.constraints with | some y => cc'.merge y | none => cc').mustNotHave := by
        intro z hz
        cases ha : a.constraints with
        | none =>
          rcases hz with hz | ⟨y, hy, -⟩
          · exact hz
          · rw [ha] at hy; cases hy
        | some y =>
          rcases hz with hz | ⟨y', hy, hz⟩
          · exact List.mem_append_left _ hz
          · rw [ha] at hy; cases hy; exact List.mem_append_right _ hz
      refine ih a b m cc' s1 s1' h1 hq1 hs w (fits_fewer hx ?_) ?_
      · intro y hy z hz
        exact hin z (Or.inr ⟨y, by rw [← hmc]; exact hy, hz⟩)
      · cases hx with
        | intro _ _ _ _ ab =>
          intro m' z y hw hz
          exact ab m' _ z y hw rfl (hin z (Or.inl hz))
    cases hfit with
    | intro _ _ found lo ab pr pp ad px it cs ct =>
    simp only [List.mem_cons, List.not_mem_nil, or_false, forall_eq_or_imp, forall_eq] at co
    obtain ⟨c1, c2, c3, c4, c5, c6, c7, c8, c9, c10, c11, c12, c13, c14, c15, c16⟩ := co
    have B1 := bounds_kept c1 c2 c3 c4 R.lengths
    have B2 := bounds_kept c5 c6 c7 c8 R.items
    have B3 := bounds_kept c9 c10 c11 c12 R.properties
    have B4 := bounds_kept c13 c14 c15 c16 R.contains
    obtain ⟨t, ht, hnt⟩ := R.type
    have P := prefix_kid (keeps_notMerge k) K.prefixItems
    have plen : node.items ≠ none → prefixLength n = prefixLength node := by
      intro hne
      have e := P.1
      have := po hne
      unfold prefixLength at *
      omega
    -- names
    obtain ⟨merged, ⟨sm, sm', hm, hqm⟩, hprops⟩ := K.properties
    have Q := notPropsLoop_kid (keeps_notMerge k) _ _ _ _ _ hm hqm
    have hforb : ∀ z, z ∈ nonConflicting (getZeroIfNil node.required []) (getZeroIfNil notNode.required []) ↔
        z ∈ cc.mustNotHave := by intro z; rw [R.mustNotHave]
    have extra : node.additionalProperties ≠ none → ∀ z, Extra pat node z → Extra pat n z := by
      intro hne z hz
      refine ⟨fun p hp => ?_, fun p hp => hz.2 p (by rw [← K.patternProperties]; exact hp)⟩
      rw [← lookupKV_none]
      have hz1 : z ∉ keysKV (getZeroIfNil node.properties []) := by
        cases hp' : node.properties with
        | none => simp [getZeroIfNil, keysKV]
        | some p' => exact hz.1 p' hp'
      have hz2 : z ∉ keysKV (getZeroIfNil notNode.properties []) := fun e => hz1 (na hne z e)
      have e1 : getZeroIfNil n.properties [] = p := getZero_some hp
      by_cases hf : z ∈ cc.mustNotHave
      · have := R.forbidden z hf
        rw [e1] at this; exact this
      · rw [← e1, hprops, lookupKV_deletes _ _ (fun e => hf ((hforb z).1 e)),
          (Q z).1 (by simp only [List.mem_append, not_or]; exact ⟨hz1, hz2⟩)]
        rfl
    refine .intro node v found ?_ ?_ ?_ ?_ ?_ ?_ ?_ ?_ ?_
    · refine ⟨types_kept ht hnt ty lo.type, ?_, ?_, ?_, ?_, ?_, ?_, ?_, ?_, ?_, ?_, ?_, ?_, ?_, ?_⟩
      · intro l hl
        obtain ⟨n0, n1, n2, cc0, cc1, s0, s1, s2, s3, r3, -, -, -, -, -, -, -, -, h2, hq2, ee, -⟩ := R.number
        obtain ⟨l', e1, e2⟩ := enum_kept h2 hq2 hl (by rintro rfl; exact en hl)
        obtain ⟨x, hx, hv⟩ := lo.enum l' (by rw [ee]; exact e1)
        exact ⟨x, e2 x hx, hv⟩
      · intro x hx; exact lo.const x (by rw [R.const]; exact hx)
      · intro q hv
        exact numbers_kept hF hi h hq' nu (lo.number q hv) (by intro l hl; rw [← hv]; exact lo.enum l hl)
      · intro x m hv hm
        obtain ⟨y, e, g⟩ := B1.1 m hm
        exact le_trans g (lo.minLength x y hv e)
      · intro x m hv hm
        obtain ⟨y, e, g⟩ := B1.2.1 m hm
        exact le_trans (lo.maxLength x y hv e) g
      · intro x p hv hp; exact lo.pattern x p hv (by rw [R.pattern.1]; exact hp)
      · intro x m hv hm
        obtain ⟨y, e, g⟩ := B2.1 m hm
        exact le_trans g (lo.minItems x y hv e)
      · intro x m hv hm
        obtain ⟨y, e, g⟩ := B2.2.1 m hm
        exact le_trans (lo.maxItems x y hv e) g
      · intro l hv hu
        obtain ⟨s1, s1', h1, -⟩ := K.uniqueItems
        have e : n.uniqueItems = some true := by
          rw [hu] at h1
          unfold resolveBool at h1
          cases hb : notNode.uniqueItems with
          | none => rw [hb] at h1; exact (pure_ok.1 h1).1.symm
          | some b =>
            rw [hb] at h1; dsimp only at h1
            split at h1
            · simp [Comp.fail] at h1
            · exact (pure_ok.1 h1).1.symm
        exact lo.uniqueItems l hv e
      · intro l x hv hx hd
        rcases notItems_kid (keeps_notMerge k) K.items hx with e | ⟨e, -⟩
        · rw [← plen (by rw [hx]; simp)]
          exact lo.itemsFalse l x hv e hd
        · rw [hd] at e; cases e
      · intro x m hv hm
        obtain ⟨y, e, g⟩ := B3.1 m hm
        exact le_trans g (lo.minProperties x y hv e)
      · intro x m hv hm
        obtain ⟨y, e, g⟩ := B3.2.1 m hm
        exact le_trans (lo.maxProperties x y hv e) g
      · intro m l z hv hl hz; exact lo.required m l z hv (by rw [R.required]; exact hl) hz
      · intro m d z x hv hd hf hz he
        obtain ⟨e, e1, e2, -⟩ := notOrFalse_kid (keeps_notMerge k) K.additional hd
        have := e2 hf
        subst this
        exact lo.additionalFalse m _ z x hv e1 hf hz (extra (by rw [hd]; simp) z he)
    · intro m x z y hv hx hz; exact ab m x z y hv (by rw [K.constraints]; exact hx) hz
    · intro m p z x sub' hv hp hz hl
      have hz1 : z ∈ keysKV (getZeroIfNil node.properties []) ++ keysKV (getZeroIfNil notNode.properties []) := by
        rw [getZero_some hp]
        exact List.mem_append_left _ (mem_keysKV.2 ⟨_, lookupKV_mem hl⟩)
      have hf : z ∉ cc.mustNotHave := fun e => habs m z x hv e hz
      have hdel : lookupKV (getZeroIfNil n.properties []) z = lookupKV merged z := by
        rw [hprops, lookupKV_deletes _ _ (fun e => hf ((hforb z).1 e))]
      have fin : ∀ y, lookupKV merged z = some y → Fits pat y x := by
        intro y hy
        rw [← hdel] at hy
        cases hnp : n.properties with
        | none => rw [hnp] at hy; simp [getZeroIfNil, lookupKV] at hy
        | some p' => rw [hnp] at hy; exact pr m p' z x y hv hnp hz hy
      obtain ⟨j1, -, j3⟩ := (Q z).2 hz1
      have hl' : lookupKV (getZeroIfNil node.properties []) z = some sub' := by rw [getZero_some hp]; exact hl
      cases hn : lookupKV (getZeroIfNil notNode.properties []) z with
      | none => exact fin _ (j1 hn sub' hl')
      | some np =>
        obtain ⟨y, e1, e2⟩ := j3 np hn
        rw [hl'] at e2
        exact sub e2 (sp z sub' np hl' hn) (fin _ e1)
    · intro m p z x rx sub' hv hp; exact pp m p z x rx sub' hv (by rw [K.patternProperties]; exact hp)
    · intro m d z x sub' hv hd hs hz he
      obtain ⟨e, e1, e2, e3⟩ := notOrFalse_kid (keeps_notMerge k) K.additional hd
      have he' := extra (by rw [hd]; simp) z he
      cases hf : d.isFalse with
      | true =>
        have := e2 hf
        subst this
        exact ad m _ z x sub' hv e1 hs hz he'
      | false =>
        obtain ⟨y, e4, e5⟩ := e3 hf sub' hs
        exact sub e5 (sa d sub' hd hs) (ad m _ z x y hv e1 e4 hz he')
    · intro l p i x sub' hv hp hl hs
      have hs' : (getZeroIfNil node.prefixItems [])[i]? = some sub' := by rw [getZero_some hp]; exact hs
      obtain ⟨l', m, e1, e2, e3⟩ := P.2 i sub' hs'
      exact sub e3 (sx i sub' hs') (px l l' i x m hv e1 hl e2)
    · intro l d i x sub' hv hd hs hi' hl
      rw [← plen (by rw [hd]; simp)] at hi'
      rcases notItems_kid (keeps_notMerge k) K.items hd with e | ⟨-, e, he, e1⟩
      · exact it l d i x sub' hv e hs hi' hl
      · obtain ⟨y, m, e2, e3, e4⟩ := e1 sub' hs
        exact sub e4 (si d e sub' hd hs he) (it l y i x m hv e2 e3 hi' hl)
    · intro l y hv hy
      obtain ⟨m, e1, e2⟩ := notSubPtr_kid (keeps_notMerge k) K.contains hy
      obtain ⟨f1, f2⟩ := cs l m hv e1
      refine ⟨f1, ?_⟩
      cases hmin : node.minContains with
      | some z =>
        obtain ⟨y', e3, g⟩ := B4.1 z hmin
        rw [e3] at f2
        exact le_trans g f2
      | none =>
        cases hmin' : n.minContains with
        | none => rw [hmin'] at f2; exact f2
        | some z =>
          rw [hmin'] at f2
          have := B4.2.2 hmin fo z hmin'
          exact le_trans this f2
    · intro l y x hv hy hx
      obtain ⟨m, e1, e2⟩ := notSubPtr_kid (keeps_notMerge k) K.contains hy
      exact sub e2 (sc y hy) (ct l m x hv e1 hx)

/-- **C76.** When applying a `not` records no error, every value that satisfies the keywords of the resulting schema and
has none of the names that the negation forbids also satisfies the keywords written beside the `not`, at every depth.  Missing: the pairs of schemas that are not
`Separable`, some of which are refuted below. -/
theorem C76_negation_keeps_keywords_partial {pat : String → String → Prop} (hF : c.fp.Lawful) (hi : 0 < infinitesimal c.fp)
    {k : Nat} {node notNode n : SchemaNode} {cc : ConstraintColl} {s s' : PSt}
    (h : notMerge c k node notNode s = .ok (n, cc) s') (hq : s'.errors = s.errors) (hsep : Separable c.fp node notNode)
    (v : JVal) (hv : Fits pat n v) (ha : ∀ m k x, v = .obj m → k ∈ cc.mustNotHave → (k, x) ∉ m) : Fits pat node v :=
  keep_all hF hi k node notNode n cc s s' h (by rw [hq]) hsep v hv ha

/-- **C76**, the keywords that combine schemas: a `not` applied without an error hands them on unchanged, with the
conditions and exclusions that earlier merges collected. -/
theorem C76_combinations_kept {k : Nat} {node notNode n : SchemaNode} {cc : ConstraintColl} {s s' : PSt}
    (h : notMerge c k node notNode s = .ok (n, cc) s') (hq : s'.errors = s.errors) :
    n.ref = node.ref ∧ n.oneOf = node.oneOf ∧ n.anyOf = node.anyOf ∧ n.ifN = node.ifN ∧ n.thenN = node.thenN ∧
    n.elseN = node.elseN ∧ n.mergedIf = node.mergedIf ∧ n.dependentRequired = node.dependentRequired ∧
    n.dependentSchemas = node.dependentSchemas ∧ n.id = node.id ∧ n.defs = node.defs ∧
    n.definitions = node.definitions ∧ n.constraints = node.constraints ∧ n.not = none ∧
    (∀ x, x ∈ node.mergedNot ∨ node.not = some x → x ∈ n.mergedNot) ∧ n.const = node.const ∧ n.format = node.format ∧
    n.pattern = node.pattern ∧ n.required = node.required ∧ n.patternProperties = node.patternProperties := by
  cases k with
  | zero => simp [notMerge] at h
  | succ k =>
    have R := notMerge_inv h (by rw [hq])
    have K := notStep_kids (keeps_notMerge k) h (by rw [hq])
    obtain ⟨m, rfl⟩ := notStep_copy h (by rw [hq])
    refine ⟨rfl, rfl, rfl, rfl, rfl, rfl, rfl, rfl, rfl, rfl, rfl, rfl, rfl, rfl, ?_, R.const, R.pattern.2, R.pattern.1,
      R.required, K.patternProperties⟩
    rintro x (hx | hx)
    · exact List.mem_append_left _ (List.mem_append_right _ hx)
    · exact List.mem_append_right _ (by rw [hx]; simp)

/-! ## A case that meets the conditions -/

theorem stepped_exact {b : Option Rat} (h : ∀ x, b = some x → |x| ≤ 2 ^ 51) : SteppedExactly FP.exact b :=
  fun x hx => ⟨h x hx, fun _ _ => ⟨rfl, rfl⟩⟩

/-- `{"type": "integer", "minimum": 1, "maximum": 100, "multipleOf": 5}` -/
def sizeNode : SchemaNode :=
  { type := some { single := "integer" }, minimum := some 1, maximum := some 100, multipleOf := some 5 }

/-- `{"minimum": 31, "multipleOf": 10}` -/
def sizeNot : SchemaNode := { minimum := some 31, multipleOf := some 10 }

/-- An object with a size, closed, with at most five members, whose size is not a multiple of ten and not above 30. -/
def boxNode : SchemaNode :=
  { type := some { single := "object" }, properties := some [("size", sizeNode), ("note", { maxLength := some 3 })],
    required := some ["size"], additionalProperties := some { isFalse := true }, maxProperties := some 5 }

/-- What is negated: the size, the name `note`, and more than two members. -/
def boxNot : SchemaNode := { properties := some [("size", sizeNot)], required := some ["note"], minProperties := some 3 }

theorem sizes_separable : Separable FP.exact sizeNode sizeNot := by
  refine .intro _ _ ?_ ?_ ?_ ?_ ⟨?_, ?_, ?_⟩ ?_ ?_ ?_ ?_ ?_ ?_ ?_
  · intro t ht; cases ht; simp
  · simp [sizeNode]
  · intro b hb x hx; simp [sizeNode, sizeNot] at hb; subst hb; cases hx
  · intro x hx; cases hx
  · intro b hb
    refine stepped_exact fun x hx => ?_
    simp [sizeNode, sizeNot] at hb
    rcases hb with rfl | rfl | rfl | rfl | rfl <;> cases hx <;> norm_num
  · intro m hm; cases hm; norm_num
  · exact Or.inr ⟨rfl, rfl⟩
  · intro hne; exact absurd rfl hne
  · intro hne; exact absurd rfl hne
  · intro z a b hz; cases hz
  · intro d a hd; cases hd
  · intro i a ha; simp [sizeNode, getZeroIfNil] at ha
  · intro d e a hd; cases hd
  · intro a ha; cases ha

theorem boxes_separable : Separable FP.exact boxNode boxNot := by
  refine .intro _ _ ?_ ?_ ?_ ?_ ⟨?_, ?_, ?_⟩ ?_ ?_ ?_ ?_ ?_ ?_ ?_
  · intro t ht; cases ht; simp
  · simp [boxNode]
  · intro b hb x hx
    simp [boxNode, boxNot] at hb
    rcases hb with rfl | rfl | rfl | rfl <;> cases hx <;> norm_num
  · intro x hx; cases hx
  · intro b hb
    refine stepped_exact fun x hx => ?_
    simp [boxNode, boxNot] at hb
    subst hb; cases hx
  · intro m hm; cases hm
  · exact Or.inr ⟨rfl, rfl⟩
  · intro _ z hz
    simp [boxNot, getZeroIfNil, keysKV] at hz
    subst hz
    simp [boxNode, getZeroIfNil, keysKV]
  · intro hne; exact absurd rfl hne
  · intro z a b ha hb
    simp only [boxNot, getZeroIfNil, lookupKV] at hb
    split at hb
    · rename_i hz
      subst hz
      cases hb; cases ha
      exact sizes_separable
    · cases hb
  · intro d a hd hs; cases hd; cases hs
  · intro i a ha; simp [boxNode, getZeroIfNil] at ha
  · intro d e a hd; cases hd
  · intro a ha; cases ha

/-- The negation is applied without an error; it forbids the name `note` and leaves the sizes 5, 15 and 25. -/
example : ∃ r s', notMerge demoEnv 5 boxNode boxNot emptyPSt = .ok r s' ∧
    (decide (s'.errors = []) && decide (r.2.mustNotHave = ["note"]) && decide (r.1.maxProperties = some 2) &&
      match lookupKV (getZeroIfNil r.1.properties []) "size" with
      | some x => JVal.jeq (.arr (getZeroIfNil x.enum [])) (.arr [.num 5, .num 15, .num 25])
      | none => false) = true :=
  Res.witness (by decide +kernel)

/-! ## Limits -/

/-- A closed object whose negation mentions another name:
`{"type": "object", "properties": {"b": {"type": "null"}}, "additionalProperties": false,
"not": {"properties": {"a": {"type": "string"}}}}`. -/
def closedNot : JVal := .obj [("type", .str "object"), ("properties", .obj [("b", .obj [("type", .str "null")])]),
  ("additionalProperties", .bool false), ("not", .obj [("properties", .obj [("a", .obj [("type", .str "string")])])])]

/-- The name that only the negation mentions is generated although the object is closed. -/
theorem C76_closed_object_violation : ∃ root v, decodeNode closedNot = some root ∧ quietlyYields closedNot v = true ∧
    ¬ Fits (patternMeaning demoEnv) root v := by
  refine ⟨_, .obj [("b", .null), ("a", .bool true)], rfl, by decide +kernel, fun h => ?_⟩
  cases h with
  | intro _ _ found lo =>
    refine lo.additionalFalse _ _ "a" (.bool true) rfl rfl rfl (by simp) ⟨?_, ?_⟩
    · intro p hp; cases hp; simp [keysKV]
    · intro p hp; cases hp

/-- A tuple of one item whose negation mentions a second one:
`{"type": "array", "prefixItems": [{"type": "null"}], "items": false,
"not": {"prefixItems": [{"type": "string"}, {"type": "string"}]}}`. -/
def tupleNot : JVal := .obj [("type", .str "array"), ("prefixItems", .arr [.obj [("type", .str "null")]]),
  ("items", .bool false), ("not", .obj [("prefixItems", .arr [.obj [("type", .str "string")], .obj [("type", .str "string")]])])]

/-- More items are generated than the closed tuple allows. -/
theorem C76_closed_tuple_violation : ∃ root v, decodeNode tupleNot = some root ∧ quietlyYields tupleNot v = true ∧
    ¬ Fits (patternMeaning demoEnv) root v := by
  refine ⟨_, .arr [.null, .num 0, .null], rfl, by decide +kernel, fun h => ?_⟩
  cases h with
  | intro _ _ found lo =>
    exact absurd (lo.itemsFalse _ _ rfl rfl rfl) (by decide +kernel)

/-- Listed values with a bound, and a negated factor:
`{"type": "number", "minimum": 1, "maximum": 10, "enum": [5, 11], "not": {"multipleOf": 3}}`. -/
def listedNot : JVal := .obj [("type", .str "number"), ("minimum", .num 1), ("maximum", .num 10),
  ("enum", .arr [.num 5, .num 11]), ("not", .obj [("multipleOf", .num 3)])]

/-- The value 11 is generated although the maximum is 10. -/
theorem C76_listed_bound_violation : ∃ root v, decodeNode listedNot = some root ∧ quietlyYields listedNot v = true ∧
    ¬ Fits (patternMeaning demoEnv) root v := by
  refine ⟨_, .num 11, rfl, by decide +kernel, fun h => ?_⟩
  cases h with
  | intro _ _ found lo => exact absurd ((lo.number 11 rfl).maximum 10 rfl) (by norm_num)

end Chaff
