import Verif.Lemmas.NotInv
import Verif.Lemmas.KV
/-!
# What `mergeSchemaNodes` puts into each field
-/

namespace Chaff
open Comp
variable {c : PEnv}

theorem warnMerge_grow {f e : String} {s s' : PSt} {u : Unit} (h : warnMerge f e s = .ok u s') :
    s'.errors.length = s.errors.length + 1 := by
  unfold warnMerge addErrorSub at h
  simp only [modS_apply, Res.ok.injEq, true_and] at h
  subst h; rfl

/-- The fields that one iteration of the main loop computes from the accumulated node `m` and the next node `n`. -/
structure MergedFields (F : FP) (rec : MergeRec) (m n r : SchemaNode) : Prop where
  type : r.type = mergeTypes m.type n.type
  minProperties : r.minProperties = maxPtr [n.minProperties, m.minProperties]
  maxProperties : r.maxProperties = minPtr [n.maxProperties, m.maxProperties]
  minItems : r.minItems = maxPtr [n.minItems, m.minItems]
  maxItems : r.maxItems = minPtr [n.maxItems, m.maxItems]
  minContains : r.minContains = maxPtr [n.minContains, m.minContains]
  maxContains : r.maxContains = minPtr [n.maxContains, m.maxContains]
  minLength : r.minLength = maxPtr [n.minLength, m.minLength]
  maxLength : r.maxLength = minPtr [n.maxLength, m.maxLength]
  minimum : r.minimum = maxPtr [n.minimum, m.minimum]
  maximum : r.maximum = minPtr [n.maximum, m.maximum]
  exclusiveMinimum : r.exclusiveMinimum = maxPtr [n.exclusiveMinimum, m.exclusiveMinimum]
  exclusiveMaximum : r.exclusiveMaximum = minPtr [n.exclusiveMaximum, m.exclusiveMaximum]
  multipleOf : r.multipleOf = findHcf F n.multipleOf m.multipleOf
  required : r.required = mergeSlicePtrs [m.required, n.required]
  allOf : r.allOf = mergeSlicePtrs [m.allOf, n.allOf]
  anyOf : r.anyOf = mergeSlicePtrs [m.anyOf, n.anyOf]
  oneOf : r.oneOf = mergeSlicePtrs [m.oneOf, n.oneOf]
  properties : ∃ s s', mergeMap rec m.properties n.properties s = .ok r.properties s'
  patternProperties : ∃ s s', mergeMap rec m.patternProperties n.patternProperties s = .ok r.patternProperties s'
  additionalProperties :
    ∃ s s', mergeNodeOrFalse rec m.additionalProperties n.additionalProperties s = .ok r.additionalProperties s'
  additionalItems : ∃ s s', mergeNodeOrFalse rec m.additionalItems n.additionalItems s = .ok r.additionalItems s'
  unevaluatedItems : ∃ s s', mergeNodeOrFalse rec m.unevaluatedItems n.unevaluatedItems s = .ok r.unevaluatedItems s'
  ref : n.ref = none → r.ref = m.ref
  nots : r.not = (mergeNot m n).not ∧ r.mergedNot = (mergeNot m n).mergedNot
  mergedIf : ∃ p, r.mergedIf = (mergeIf p m n).mergedIf
  constraints : r.constraints = mergeConstraints m.constraints n.constraints
  dependentRequired : r.dependentRequired = m.dependentRequired
  dependentSchemas : r.dependentSchemas = m.dependentSchemas
  ifN : r.ifN = m.ifN
  pattern : r.pattern = getPtr [n.pattern, m.pattern]
  format : r.format = getPtr [n.format, m.format]

theorem mergeEnumAndConst_shape {m n r : SchemaNode} {s s' : PSt} (h : mergeEnumAndConst m n s = .ok r s') :
    ∃ e k, r = { m with enum := e, const := k } := by
  have hset : ∀ l, ∃ e k, setAllowed m l = { m with enum := e, const := k } := by
    intro l; unfold setAllowed; split <;> exact ⟨_, _, rfl⟩
  unfold mergeEnumAndConst at h
  cases ha : collectEnumValues m with
  | none =>
    cases hb : collectEnumValues n with
    | none =>
      rw [ha, hb] at h; dsimp only at h
      obtain ⟨rfl, -⟩ := pure_ok.1 h; exact ⟨m.enum, m.const, by cases m; rfl⟩
    | some q => rw [ha, hb] at h; dsimp only at h; obtain ⟨rfl, -⟩ := pure_ok.1 h; exact hset _
  | some p =>
    cases hb : collectEnumValues n with
    | none => rw [ha, hb] at h; dsimp only at h; obtain ⟨rfl, -⟩ := pure_ok.1 h; exact hset _
    | some q =>
      rw [ha, hb] at h; dsimp only at h
      split at h
      · obtain ⟨u, s1, h1, h2⟩ := bind_ok.1 h
        obtain ⟨rfl, -⟩ := pure_ok.1 h2; exact ⟨_, _, rfl⟩
      · obtain ⟨rfl, -⟩ := pure_ok.1 h; exact hset _

theorem mergeNot_of {m n m' : SchemaNode} (h1 : m'.not = m.not) (h2 : m'.mergedNot = m.mergedNot) :
    (mergeNot m' n).not = (mergeNot m n).not ∧ (mergeNot m' n).mergedNot = (mergeNot m n).mergedNot := by
  have own : (mergeNotOwn m' n).not = (mergeNotOwn m n).not ∧
      (mergeNotOwn m' n).mergedNot = (mergeNotOwn m n).mergedNot := by
    unfold mergeNotOwn
    cases n.not with
    | none => exact ⟨h1, h2⟩
    | some x =>
      rw [h1, h2]
      cases hm : m.not with
      | some y => exact ⟨rfl, rfl⟩
      | none =>
        by_cases hl : 0 < m.mergedNot.length
        · simp only [hl, if_true]; exact ⟨trivial, trivial⟩
        · simp only [hl, if_false]; exact ⟨trivial, trivial⟩
  unfold mergeNot mergeNotCollected
  split
  · rw [own.1, own.2]
    cases (mergeNotOwn m n).not with
    | some y => exact ⟨rfl, rfl⟩
    | none => exact ⟨rfl, rfl⟩
  · exact own

theorem mergeNot_shape (m n : SchemaNode) : ∃ x l, mergeNot m n = { m with not := x, mergedNot := l } := by
  have own : ∃ x l, mergeNotOwn m n = { m with not := x, mergedNot := l } := by
    unfold mergeNotOwn
    cases n.not with
    | none => exact ⟨m.not, m.mergedNot, by cases m; rfl⟩
    | some x =>
      cases hm : m.not with
      | some y => exact ⟨_, _, rfl⟩
      | none =>
        dsimp only
        split
        · exact ⟨none, _, rfl⟩
        · exact ⟨_, m.mergedNot, rfl⟩
  obtain ⟨x, l, hx⟩ := own
  unfold mergeNot mergeNotCollected
  rw [hx]
  split
  · cases x with
    | some y => exact ⟨_, _, rfl⟩
    | none => exact ⟨none, _, rfl⟩
  · exact ⟨_, _, rfl⟩

theorem mergeIf_of {p : String} {m n m' : SchemaNode} (h : m'.mergedIf = m.mergedIf) :
    (mergeIf p m' n).mergedIf = (mergeIf p m n).mergedIf := by
  unfold mergeIf; dsimp only; rw [h]

theorem mergeFields_inv {F : FP} {rec : MergeRec} {m n r : SchemaNode} {s s' : PSt}
    (h : mergeFields F rec m n s = .ok r s') :
    MergedFields F rec m n r ∧
    ∃ m1 s1, mergeEnumAndConst { m with type := mergeTypes m.type n.type } n s = .ok m1 s1 ∧
      r.enum = m1.enum ∧ r.const = m1.const ∧
      ((∀ l, Keeps c (rec l)) → s1.errors.length ≤ s'.errors.length) := by
  unfold mergeFields at h
  obtain ⟨m1, s1, h1, w1⟩ := bind_ok.1 h
  obtain ⟨m2, s2, h2, w2⟩ := bind_ok.1 w1
  obtain ⟨p, s3, h3, w3⟩ := bind_ok.1 w2
  have hs3 : s3 = s2 := by unfold gets at h3; injection h3 with _ h3'; exact h3'.symm
  obtain ⟨u, s4, h4, w4⟩ := bind_ok.1 w3
  obtain ⟨hr, hs4⟩ := pure_ok.1 w4
  obtain ⟨e, k, hm1⟩ := mergeEnumAndConst_shape h1
  have hgrow : (∀ l, Keeps c (rec l)) → s1.errors.length ≤ s'.errors.length := by
    intro hk
    have a := (keeps_mergeSubs (c := c) (rec := rec) hk m1 n).grow h2
    have b := (keeps_warnSimple (c := c) _ n).grow h4
    rw [hs3] at b; rw [hs4] at b; omega
  unfold mergeSubs at h2
  obtain ⟨a1, t1, g1, v1⟩ := bind_ok.1 h2
  obtain ⟨a2, t2, g2, v2⟩ := bind_ok.1 v1
  obtain ⟨a3, t3, g3, v3⟩ := bind_ok.1 v2
  obtain ⟨a4, t4, g4, v4⟩ := bind_ok.1 v3
  obtain ⟨a5, t5, g5, v5⟩ := bind_ok.1 v4
  obtain ⟨a6, t6, g6, v6⟩ := bind_ok.1 v5
  obtain ⟨a7, t7, g7, v7⟩ := bind_ok.1 v6
  obtain ⟨a8, t8, g8, v8⟩ := bind_ok.1 v7
  obtain ⟨hm2, -⟩ := pure_ok.1 v8
  obtain ⟨x, l, hx⟩ := mergeNot_shape m2 n
  have hn1 : (mergeNot m2 n).not = (mergeNot m n).not ∧ (mergeNot m2 n).mergedNot = (mergeNot m n).mergedNot := by
    apply mergeNot_of <;> rw [← hm2, hm1]
  have hi1 : (mergeIf p (mergeNot m2 n) n).mergedIf = (mergeIf p m n).mergedIf := by
    apply mergeIf_of; rw [hx, ← hm2, hm1]
  rw [hx] at hn1 hi1
  rw [hx] at hr
  generalize hq : { m2 with not := x, mergedNot := l } = q at *
  have hr' : ∃ rf, (n.ref = none → rf = q.ref) ∧ r = { mergeSimple F (mergeIf p q n) n with
      constraints := mergeConstraints q.constraints n.constraints, ref := rf } := by
    by_cases hn : n.ref.isSome
    · rw [if_pos hn] at hr
      refine ⟨n.ref, fun h => ?_, hr.symm⟩
      rw [h] at hn; simp at hn
    · rw [if_neg hn] at hr
      refine ⟨q.ref, fun _ => rfl, hr.symm⟩
  obtain ⟨rf, hrf, hr'⟩ := hr'
  subst hm1
  subst hm2
  subst hq
  subst hr'
  refine ⟨⟨rfl, rfl, rfl, rfl, rfl, rfl, rfl, rfl, rfl, rfl, rfl, rfl, rfl, rfl, rfl, rfl, rfl, rfl,
    ⟨_, _, g1⟩, ⟨_, _, g3⟩, ⟨_, _, g2⟩, ⟨_, _, g6⟩, ⟨_, _, g7⟩, hrf, hn1, ⟨p, hi1⟩, rfl, rfl, rfl, rfl, rfl, rfl⟩,
    _, s1, h1, rfl, rfl, hgrow⟩

end Chaff
