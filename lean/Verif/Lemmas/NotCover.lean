import Verif.Props.Merge
import Verif.Props.Not
import Verif.Props.Constraint
import Verif.Spec.NotAll
import Verif.Lemmas.Decode
/-!
# What the collected exclusions cover
-/

namespace Chaff
open Comp

variable {c : PEnv}

/-! ## Collections of forbidden things -/

theorem addStrings_old {old new : List String} {w : String} (h : w ∈ old) : w ∈ addStrings old new := by
  unfold addStrings
  induction new generalizing old with
  | nil => exact h
  | cons v t ih =>
    simp only [List.foldl_cons]
    split
    · exact ih h
    · exact ih (List.mem_append_left _ h)

theorem addStrings_new {old new : List String} {w : String} (h : w ∈ new) : w ∈ addStrings old new := by
  unfold addStrings
  induction new generalizing old with
  | nil => cases h
  | cons v t ih =>
    simp only [List.foldl_cons]
    rcases List.mem_cons.1 h with rfl | h
    · split
      · rename_i hm
        exact addStrings_old (new := t) hm
      · exact addStrings_old (new := t) (List.mem_append_right _ (by simp))
    · exact ih h

/-- What a collection has to contain for the negation `x` of a schema that requires `req`. -/
structure Covers (req : List String) (x : SchemaNode) (cc : ConstraintColl) : Prop where
  pattern : ∀ p, x.pattern = some p → p ∈ cc.notRegex
  format : x.pattern = none → ∀ f, x.format = some f → f ∈ cc.notFormats
  const : ∀ w, x.const = some w → w.WF → ∃ w' ∈ cc.notValues, JVal.jeq w w' = true
  required : ∀ y ∈ getZeroIfNil x.required [], y ∉ req → y ∈ cc.mustNotHave

/-- The values of the negation's `enum` are among the forbidden ones. -/
def CoversEnum (x : SchemaNode) (cc : ConstraintColl) : Prop :=
  ∀ l w, x.enum = some l → w ∈ l → w.WF → ∃ w' ∈ cc.notValues, JVal.jeq w w' = true

theorem Covers.left {req : List String} {x : SchemaNode} {a b : ConstraintColl} (h : Covers req x a) :
    Covers req x (a.merge b) where
  pattern p hp := addStrings_old (h.pattern p hp)
  format hn f hf := addStrings_old (h.format hn f hf)
  const w hw hwf := by
    obtain ⟨w', h1, h2⟩ := h.const w hw hwf
    exact ⟨w', addValues_mem_old h1, h2⟩
  required y hy hr := List.mem_append_left _ (h.required y hy hr)

theorem addValues_jeq {old new : List JVal} {w v : JVal} (hw : w ∈ new) (hv : JVal.jeq v w = true) :
    ∃ w' ∈ addValues old new, JVal.jeq v w' = true := by
  unfold addValues
  induction new generalizing old with
  | nil => cases hw
  | cons u t ih =>
    simp only [List.foldl_cons]
    rcases List.mem_cons.1 hw with rfl | hw
    · split
      · rename_i ha
        obtain ⟨w', h1, h2⟩ := List.any_eq_true.1 ha
        exact ⟨w', addValues_mem_old (new := t) h1, JVal.jeq_trans _ _ _ hv h2⟩
      · exact ⟨w, addValues_mem_old (new := t) (by simp), hv⟩
    · exact ih hw

theorem Covers.right {req : List String} {x : SchemaNode} {a b : ConstraintColl} (h : Covers req x b) :
    Covers req x (a.merge b) where
  pattern p hp := addStrings_new (h.pattern p hp)
  format hn f hf := addStrings_new (h.format hn f hf)
  const w hw hwf := by
    obtain ⟨w', h1, h2⟩ := h.const w hw hwf
    exact addValues_jeq h1 h2
  required y hy hr := List.mem_append_right _ (h.required y hy hr)

theorem CoversEnum.left {x : SchemaNode} {a b : ConstraintColl} (h : CoversEnum x a) : CoversEnum x (a.merge b) := by
  intro l w hl hw hwf
  obtain ⟨w', h1, h2⟩ := h l w hl hw hwf
  exact ⟨w', addValues_mem_old h1, h2⟩

theorem CoversEnum.right {x : SchemaNode} {a b : ConstraintColl} (h : CoversEnum x b) : CoversEnum x (a.merge b) := by
  intro l w hl hw hwf
  obtain ⟨w', h1, h2⟩ := h l w hl hw hwf
  exact addValues_jeq h1 h2

theorem Keeps.same {α : Type} {m : P α} (h : Keeps c m) {s s' : PSt} {a : α} (e : m s = .ok a s')
    (hq : s'.errors.length = s.errors.length) : s'.errors = s.errors := by
  obtain ⟨l, hl, -⟩ := (h s a s' e).errors
  have : l = [] := by rw [hl] at hq; simpa using hq
  rw [hl, this]; rfl

/-! ## One negation after another -/

theorem applyMultiples_enum {F : FP} {b : FloatBounds} {mo : Rat} {node nn r : SchemaNode} {s s' : PSt}
    (h : applyMultiples F b mo 0 node nn s = .ok r s') : r.enum = nn.enum := by
  unfold applyMultiples at h
  split at h
  · obtain ⟨rfl, -⟩ := pure_ok.1 h; rfl
  · rw [if_neg (by simp), if_neg (by simp), if_neg (by simp), if_neg (by simp)] at h
    obtain ⟨rfl, -⟩ := pure_ok.1 h; rfl

theorem notApplyNumber_enum {F : FP} {node x nn r : SchemaNode} {s s' : PSt} (hx : effNotMultipleOf x = 0)
    (h : notApplyNumber F node x nn s = .ok r s') : r.enum = nn.enum := by
  unfold notApplyNumber at h
  dsimp only at h
  rw [hx] at h
  split at h
  · obtain ⟨u, s1, -, h⟩ := bind_ok.1 h
    have e := applyMultiples_enum h
    exact e
  · have e := applyMultiples_enum h
    exact e

theorem notMerge_noEnum {k : Nat} {node x n : SchemaNode} {cc : ConstraintColl} {s s' : PSt}
    (h : notMerge c k node x s = .ok (n, cc) s') (hq : s'.errors.length = s.errors.length)
    (hx : effNotMultipleOf x = 0) (he : node.enum = none) (hc : node.const = none) : n.enum = none ∧ n.const = none := by
  have R := notMerge_inv h hq
  obtain ⟨n0, n1, n2, cc0, cc1, s0, s1, s2, s3, r3, et, en, -, h1, hq1, -, -, -, h2, hq2, ee, -⟩ := R.number
  refine ⟨?_, R.const.trans hc⟩
  rw [ee]
  have e1 := notApplyNumber_enum hx h1
  rw [en] at e1
  unfold notApplyEnum at h2
  dsimp only at h2
  split at h2
  · obtain ⟨e, -⟩ := pure_ok.1 h2
    rw [← (Prod.mk.inj e).1, e1]
  · rename_i hn
    split at h2
    · rw [hc] at h2
      obtain ⟨e, -⟩ := pure_ok.1 h2
      rw [← (Prod.mk.inj e).1, e1]
    · rename_i hl
      rw [he] at hn hl
      have : getZeroIfNil x.enum [] = [] := by
        by_contra hne
        exact hl ⟨rfl, by simpa using hne⟩
      obtain ⟨m, s9, h9, h2⟩ := bind_ok.1 h2
      obtain ⟨i1, i2⟩ := notEnumRest_inv h9 (by obtain ⟨-, rfl⟩ := pure_ok.1 h2; exact hq2)
      exfalso
      apply i2
      rw [he]; rfl

/-- Applying the negations one after the other without an error leaves every one of them in the collection. -/
theorem applyNots_covers {k : Nat} : ∀ (l : List SchemaNode) (node : SchemaNode) (cc : ConstraintColl)
    (res : SchemaNode × ConstraintColl) (s s' : PSt), applyNots c k node cc l s = .ok res s' →
    s'.errors.length = s.errors.length →
    (∀ x req, Covers req x cc → Covers req x res.2) ∧ (∀ x, CoversEnum x cc → CoversEnum x res.2) ∧
    (∀ x ∈ l, Covers (getZeroIfNil node.required []) x res.2) ∧
    (node.enum = none → node.const = none → (∀ x ∈ l, effNotMultipleOf x = 0) → ∀ x ∈ l, CoversEnum x res.2) := by
  intro l
  induction l with
  | nil =>
    intro node cc res s s' h _
    unfold applyNots at h
    obtain ⟨rfl, -⟩ := pure_ok.1 h
    exact ⟨fun _ _ h => h, fun _ h => h, by simp, by simp⟩
  | cons nn t ih =>
    intro node cc res s s' h hq
    unfold applyNots at h
    obtain ⟨r, s1, h1, w1⟩ := bind_ok.1 h
    have g1 := (keeps_notMerge (c := c) k node nn).grow h1
    have g2 := (keeps_applyNots (c := c) k t r.1 (cc.merge r.2)).grow w1
    have hq1 : s1.errors.length = s.errors.length := by omega
    have hs1 : s1.errors = s.errors := (keeps_notMerge (c := c) k node nn).same h1 hq1
    have R := notMerge_inv (n := r.1) (cc := r.2) h1 hq1
    obtain ⟨v1, v2⟩ := C42_negated_values_checked (n := r.1) (cc := r.2) h1 hs1
    obtain ⟨i1, i2, i3, i4⟩ := ih r.1 (cc.merge r.2) res s1 s' w1 (by omega)
    have own : Covers (getZeroIfNil node.required []) nn r.2 :=
      { pattern := R.regex
        format := R.formats
        const := v1
        required := fun y hy hr => by rw [R.mustNotHave, mem_nonConflicting]; exact ⟨hy, hr⟩ }
    refine ⟨fun x req hx => i1 x req hx.left, fun x hx => i2 x hx.left, fun x hx => ?_, fun he hc hm x hx => ?_⟩
    · rcases List.mem_cons.1 hx with rfl | hx
      · exact i1 _ _ own.right
      · have := i3 x hx
        rw [R.required] at this
        exact this
    · obtain ⟨e1, e2⟩ := notMerge_noEnum (n := r.1) (cc := r.2) h1 hq1 (hm nn (by simp)) he hc
      rcases List.mem_cons.1 hx with rfl | hx
      · exact i2 _ (CoversEnum.right (fun l w hl hw hwf => v2 he hc l hl w hw hwf))
      · exact i4 e1 e2 (fun y hy => hm y (by simp [hy])) x hx

/-! ## Flattening a negated schema -/

/-- The keywords of a negated schema that matter here. -/
structure SameNegation (x y : SchemaNode) : Prop where
  pattern : y.pattern = x.pattern
  format : y.format = x.format
  required : ∀ name, Requires y name ↔ Requires x name
  const : ∀ w, x.const = some w → x.enum = none → y.const = some w
  enum : ∀ l, x.enum = some l → y.enum = some l ∨ ∃ w, l = [w] ∧ y.const = some w
  multiple : x.multipleOf = none → x.type = none → effNotMultipleOf y = 0

theorem mergeFields_empty {F : FP} {rec : MergeRec} {m n r : SchemaNode} {s s' : PSt}
    (h : mergeFields F rec m n s = .ok r s') (hm : collectEnumValues m = none) :
    (collectEnumValues n = none → r.enum = none ∧ r.const = none) ∧
    (∀ l, collectEnumValues n = some l → (∀ w, l = [w] → r.const = some w ∧ r.enum = none) ∧
      ((∀ w, l ≠ [w]) → r.enum = some l)) := by
  obtain ⟨f, m1, s1, h1, he, hc, -⟩ := mergeFields_inv (c := demoEnv) h
  have hm' : collectEnumValues { m with type := mergeTypes m.type n.type } = none := hm
  have he0 : m.enum = none ∧ m.const = none := by
    unfold collectEnumValues at hm
    cases h1 : m.enum <;> cases h2 : m.const <;> rw [h1] at hm <;> simp_all
  unfold mergeEnumAndConst at h1
  rw [hm'] at h1
  constructor
  · intro hn
    rw [hn] at h1
    obtain ⟨rfl, -⟩ := pure_ok.1 h1
    exact ⟨he.trans he0.1, hc.trans he0.2⟩
  · intro l hl
    rw [hl] at h1
    obtain ⟨rfl, -⟩ := pure_ok.1 h1
    constructor
    · rintro w rfl
      exact ⟨hc, he⟩
    · intro hw
      rw [he]
      unfold setAllowed
      split
      · rename_i w; exact absurd rfl (hw w)
      · rfl

theorem mergeSlicePtrs_nil {α : Type} : mergeSlicePtrs [(none : Option (List α)), none] = none := rfl

/-- Flattening a schema without a reference, an `allOf` and a `not` of its own. -/
theorem flatten_negation {k : Nat} {x r : SchemaNode} {s s' : PSt} (hr : x.ref = none) (ha : x.allOf = none)
    (hn : x.not = none) (h : mergeNodes c k [emptyNode, x] s = .ok r s') : SameNegation x r ∧ r.not = none := by
  cases k with
  | zero => cases h
  | succ k =>
    unfold mergeNodes mergeStep at h
    obtain ⟨m, s1, h1, w1⟩ := bind_ok.1 h
    unfold mergeLoop at h1
    obtain ⟨m0, s2, h2, h3⟩ := bind_ok.1 h1
    unfold mergeLoop at h3
    obtain ⟨m1, s3, h3, h4⟩ := bind_ok.1 h3
    unfold mergeLoop at h4
    obtain ⟨e4, -⟩ := pure_ok.1 h4
    have h2' := mergeOne_noRef rfl h2
    have h3' := mergeOne_noRef hr h3
    obtain ⟨f0, -⟩ := mergeFields_inv (c := c) h2'
    obtain ⟨f1, -⟩ := mergeFields_inv (c := c) h3'
    have v0 := (mergeFields_empty h2' rfl).1 rfl
    have c0 : collectEnumValues m0 = none := by unfold collectEnumValues; rw [v0.1, v0.2]
    have v1 := mergeFields_empty h3' c0
    subst e4
    have hallOf : m1.allOf = none := by rw [f1.allOf, f0.allOf, ha]; rfl
    have e : m1 = r := by
      cases k with
      | zero => cases w1
      | succ k =>
        unfold flattenResidual at w1
        rw [hallOf] at w1
        exact (pure_ok.1 w1).1
    subst e
    have n0 : m0.not = none ∧ m0.mergedNot = [] := by rw [f0.nots.1, f0.nots.2]; exact ⟨rfl, rfl⟩
    refine ⟨⟨?_, ?_, ?_, ?_, ?_, ?_⟩, ?_⟩
    · rw [f1.pattern, f0.pattern]
      cases x.pattern <;> rfl
    · rw [f1.format, f0.format]
      cases x.format <;> rfl
    · intro name
      rw [requires_merge f1, requires_merge f0]
      simp [Requires, emptyNode]
    · intro w hw he
      exact ((v1.2 [w] (by unfold collectEnumValues; rw [he, hw])).1 w rfl).1
    · intro l hl
      have hcl : collectEnumValues x = some l := by unfold collectEnumValues; rw [hl]
      by_cases hw : ∃ w, l = [w]
      · obtain ⟨w, rfl⟩ := hw
        exact .inr ⟨w, rfl, ((v1.2 _ hcl).1 w rfl).1⟩
      · exact .inl ((v1.2 _ hcl).2 (fun w e => hw ⟨w, e⟩))
    · intro hm ht
      have t1 : m1.type = none := by rw [f1.type, f0.type, ht]; rfl
      have t2 : m1.multipleOf = none := by rw [f1.multipleOf, f0.multipleOf, hm]; rfl
      unfold effNotMultipleOf
      rw [t1, t2]; rfl
    · rw [f1.nots.1]
      unfold mergeNot mergeNotOwn
      rw [hn]
      dsimp only
      unfold mergeNotCollected
      rw [n0.1]
      dsimp only
      split <;> first | rfl | exact n0.1

theorem partitionNots_flat {k : Nat} : ∀ (l : List SchemaNode) (i : Nat) (res : List SchemaNode × List SchemaNode) (s s' : PSt),
    partitionNots c k i l s = .ok res s' → (∀ x ∈ l, x.ref = none ∧ x.allOf = none ∧ x.not = none) →
    res.2 = [] ∧ (∀ x ∈ l, ∃ y ∈ res.1, SameNegation x y) ∧ (∀ y ∈ res.1, ∃ x ∈ l, SameNegation x y) := by
  intro l
  induction l with
  | nil =>
    intro i res s s' h _
    unfold partitionNots at h
    obtain ⟨rfl, -⟩ := pure_ok.1 h
    exact ⟨rfl, by simp, by simp⟩
  | cons raw t ih =>
    intro i res s s' h hl
    unfold partitionNots at h
    obtain ⟨u, s1, h1, h⟩ := bind_ok.1 h
    obtain ⟨flat, s2, h2, h⟩ := bind_ok.1 h
    obtain ⟨u', s3, h3, h⟩ := bind_ok.1 h
    obtain ⟨a, b, d⟩ := hl raw (by simp)
    obtain ⟨sn, hn⟩ := flatten_negation a b d h2
    rw [hn] at h
    dsimp only at h
    obtain ⟨r, s4, h4, h⟩ := bind_ok.1 h
    obtain ⟨rfl, -⟩ := pure_ok.1 h
    obtain ⟨i1, i2, i3⟩ := ih (i + 1) r s3 s4 h4 (fun x hx => hl x (by simp [hx]))
    refine ⟨i1, fun x hx => ?_, fun y hy => ?_⟩
    · rcases List.mem_cons.1 hx with rfl | hx
      · exact ⟨flat, by simp, sn⟩
      · obtain ⟨y, hy, e⟩ := i2 x hx
        exact ⟨y, by simp [hy], e⟩
    · rcases List.mem_cons.1 hy with rfl | hy
      · exact ⟨raw, by simp, sn⟩
      · obtain ⟨x, hx, e⟩ := i3 y hy
        exact ⟨x, by simp [hx], e⟩

/-! ## From the collection to the value -/

/-- What a pattern means to the validator of generated values. -/
def compiledMatch (c : PEnv) (p t : String) : Prop := ∃ f, c.rxCompile p = some f ∧ f t = true

/-- What a format means to the validator of generated values. -/
def compiledFormat (c : PEnv) (f : String) (v : JVal) : Prop := ∃ g, c.formats f = some g ∧ g v = true

theorem compileColl_eq (c : PEnv) (cc : ConstraintColl) : ∃ fns, compileColl c cc = .multi fns ∧
    (∀ p ∈ cc.notRegex, ∀ f, c.rxCompile p = some f → notRegexFn f ∈ fns) ∧
    (∀ p ∈ cc.notFormats, ∀ f, c.formats p = some f → (fun v => ! f v) ∈ fns) ∧
    (cc.notValues ≠ [] → notValuesFn cc.notValues ∈ fns) ∧
    (cc.mustNotHave ≠ [] → mustNotHaveFn cc.mustNotHave ∈ fns) := by
  refine ⟨_, rfl, ?_, ?_, ?_, ?_⟩
  · intro p hp f hf
    refine List.mem_append_left _ (List.mem_append_left _ (List.mem_append_left _ ?_))
    exact List.mem_filterMap.2 ⟨p, hp, by rw [hf]; rfl⟩
  · intro p hp f hf
    refine List.mem_append_left _ (List.mem_append_left _ (List.mem_append_right _ ?_))
    exact List.mem_filterMap.2 ⟨p, hp, by rw [hf]; rfl⟩
  · intro hne
    refine List.mem_append_left _ (List.mem_append_right _ ?_)
    rw [if_pos (by simpa [List.length_pos_iff] using hne)]; simp
  · intro hne
    refine List.mem_append_right _ ?_
    rw [if_pos (by simpa [List.length_pos_iff] using hne)]; simp

theorem values_clear {vals : List JVal} {v w w' : JVal} (h : notValuesFn vals v = true) (hw : w.WF) (hm : w' ∈ vals)
    (hj : JVal.jeq w w' = true) : ¬ SameJson v w := by
  intro hs
  have hv : v.WF := hs.wf.2 hw
  have : JVal.jeq v w' = true := JVal.jeq_trans _ _ _ (hs.jeq hv) hj
  unfold notValuesFn at h
  simp only [Bool.not_eq_true', List.any_eq_false] at h
  exact h w' hm this

theorem covers_clear {cc : ConstraintColl} {fns : List (JVal → Bool)} {req : List String} {x y : SchemaNode} {v : JVal}
    {demanded : String → Prop} (hc : compileColl c cc = .multi fns) (hv : ∀ f ∈ fns, f v = true) (hs : SameNegation x y)
    (hy : Covers req y cc) (hreq : ∀ name ∈ req, demanded name) :
    KeepsClear (compiledMatch c) (compiledFormat c) demanded x v := by
  obtain ⟨fns', e, r1, r2, r3, r4⟩ := compileColl_eq c cc
  rw [hc] at e
  injection e with e
  subst e
  refine ⟨?_, ?_, ?_, ?_⟩
  · rintro p t hp rfl ⟨f, hf, hm⟩
    have := hv _ (r1 p (hy.pattern p (hs.pattern.trans hp)) f hf)
    unfold notRegexFn at this
    simp [hm] at this
  · rintro f hn hf ⟨g, hg, hm⟩
    have := hv _ (r2 f (hy.format (hs.pattern.trans hn) f (hs.format.trans hf)) g hg)
    simp [hm] at this
  · intro w hw he hwf
    obtain ⟨w', h1, h2⟩ := hy.const w (hs.const w hw he) hwf
    exact values_clear (hv _ (r3 (List.ne_nil_of_mem h1))) hwf h1 h2
  · rintro names name l w hn hname hd rfl hm
    have hr : Requires y name := (hs.required name).2 ⟨names, hn, hname⟩
    obtain ⟨ns, e, hns⟩ := hr
    have hmem := hy.required name (by rw [e]; exact hns) (fun h => hd (hreq name h))
    have := hv _ (r4 (List.ne_nil_of_mem hmem))
    unfold mustNotHaveFn at this
    have h0 := List.all_eq_true.1 this name hmem
    rw [Option.isNone_iff_eq_none, lookupKV_none] at h0
    exact h0 (mem_keysKV.2 ⟨w, hm⟩)

theorem covers_clear_enum {cc : ConstraintColl} {fns : List (JVal → Bool)} {req : List String} {x y : SchemaNode} {v : JVal}
    (hc : compileColl c cc = .multi fns) (hv : ∀ f ∈ fns, f v = true) (hs : SameNegation x y)
    (hy : Covers req y cc) (hye : CoversEnum y cc) : KeepsClearOfEnum x v := by
  obtain ⟨fns', e, -, -, r3, -⟩ := compileColl_eq c cc
  rw [hc] at e
  injection e with e
  subst e
  intro l w hl hw hwf
  rcases hs.enum l hl with h | ⟨w0, rfl, h⟩
  · obtain ⟨w', h1, h2⟩ := hye l w h hw hwf
    exact values_clear (hv _ (r3 (List.ne_nil_of_mem h1))) hwf h1 h2
  · rw [List.mem_singleton] at hw
    subst hw
    obtain ⟨w', h1, h2⟩ := hy.const w h hwf
    exact values_clear (hv _ (r3 (List.ne_nil_of_mem h1))) hwf h1 h2

end Chaff
