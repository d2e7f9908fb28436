import Verif.Lemmas.Conjoin
import Verif.Props.ValidAny
/-!
# C86: taking schemas together is conjunction

`Concurs` (`Spec/Combine.lean`) describes schemas that agree on the type of what is at each place.
-/

namespace Chaff
open Comp

/-- Agreeing schemas are merged, without an error being recorded, into one that allows a value exactly if all of them
allow it: nothing that one of them forbids is allowed, and nothing is forbidden that they all allow. -/
theorem C86_merging_is_conjunction (c : PEnv) (o : Opts) (root : SchemaNode) (ty : ValuePath → Kind) (b : Nat) (path : ValuePath)
    (nodes : List SchemaNode) (hsome : nodes ≠ []) (hagree : ∀ x ∈ nodes, Concurs c o ty b path x) (k : Nat) (s s' : PSt)
    (r : SchemaNode) (hrun : mergeNodes c k nodes s = .ok r s') (herr : s'.errors = []) (v : JVal) :
    Valid (patternMeaning c) root r v ↔ ∀ x ∈ nodes, Valid (patternMeaning c) root x v :=
  ⟨fun h x hx => ((merge_concur k).concurs b path nodes s r s' hsome hagree hrun herr).2.2 x hx v h,
    fun h => merge_above k b path nodes s r s' hsome hagree hrun herr v h⟩

/-! ## The hypotheses are met -/

theorem tag_lower {o : Opts} {b : Nat} : Concurs demoEnv o (fun _ => "integer") (b + 1) [] tagLower := by
  refine .intro (part_mergeable rfl (by decide) nofun nofun nofun nofun ?_ nofun nofun nofun) nofun nofun nofun nofun
  rintro q ⟨⟩; exact small_rat (.inl rfl)

theorem tag_upper {o : Opts} {b : Nat} : Concurs demoEnv o (fun _ => "integer") (b + 1) [] tagUpper := by
  refine .intro (part_mergeable rfl (by decide) ?_ nofun nofun nofun nofun ?_ nofun nofun) nofun nofun nofun nofun
  · rintro x ⟨⟩; rfl
  · rintro q ⟨⟩; exact small_rat (.inr rfl)

theorem tag_both {o : Opts} {b : Nat} : Concurs demoEnv o (fun _ => "integer") (b + 1) [] tagBoth := by
  refine .intro (part_mergeable rfl (by decide) nofun nofun nofun nofun nofun nofun nofun nofun) ?_ ?_ nofun nofun
  · rintro l ⟨⟩; simp
  · rintro l x ⟨⟩ hx
    simp only [List.mem_cons, List.mem_nil_iff, or_false] at hx
    rcases hx with rfl | rfl
    · exact tag_lower
    · exact tag_upper

/-- Whether the merge records no error. -/
def mergesCleanly (nodes : List SchemaNode) : Bool :=
  match mergeNodes demoEnv 20 nodes {} with
  | .ok _ s => s.errors.length = 0
  | _ => false

/-- A lower and an upper bound, the latter within a nested `allOf`. -/
example : ∃ r s, mergeNodes demoEnv 20 [tagLower, tagBoth] {} = .ok r s ∧ s.errors = [] ∧ ∀ v, (Valid (patternMeaning demoEnv) emptyNode r v ↔
    Valid (patternMeaning demoEnv) emptyNode tagLower v ∧ Valid (patternMeaning demoEnv) emptyNode tagBoth v) := by
  have hc : mergesCleanly [tagLower, tagBoth] = true := by decide +kernel
  unfold mergesCleanly at hc
  split at hc
  · rename_i r s hrun
    refine ⟨r, s, hrun, by simpa using hc, fun v => ?_⟩
    rw [C86_merging_is_conjunction demoEnv {} emptyNode (fun _ => "integer") 1 [] [tagLower, tagBoth] (by simp) ?_ 20 {} s r hrun
      (by simpa using hc) v]
    · simp
    · intro x hx
      simp only [List.mem_cons, List.mem_nil_iff, or_false] at hx
      rcases hx with rfl | rfl
      · exact tag_lower
      · exact tag_both
  · cases hc

/-! ## Values that a combination attains (C75) -/

/-- `{"allOf": [{"minimum": 1}, {"type": "integer", "maximum": 9}]}` -/
def bothSchema : JVal :=
  .obj [("allOf", .arr [.obj [("minimum", .num 1)], .obj [("type", .str "integer"), ("maximum", .num 9)]])]

set_option maxHeartbeats 4000000 in
theorem both_decodes : decodeNode bothSchema = some tagBoth := by rfl

theorem both_places {m : SchemaNode} {d : Nat} {ts : List String} (h : Inside tagBoth d ts m) : m = tagBoth ∧ d = 0 := by
  induction h with
  | root => exact ⟨rfl, rfl⟩
  | named _ hn ih =>
    obtain ⟨rfl, rfl⟩ := ih
    cases hn with
    | _ p hp _ => cases hp
  | sub _ hn hkw ih =>
    clear hkw
    obtain ⟨rfl, rfl⟩ := ih
    cases hn <;> first | (rename_i hp; cases hp; done) | (rename_i hp _ _; cases hp; done)
  | items _ hi _ _ ih => obtain ⟨rfl, rfl⟩ := ih; cases hi
  | prefixItems _ hi _ ih => obtain ⟨rfl, rfl⟩ := ih; cases hi

theorem both_ok {o : Opts} {m : SchemaNode} {d : Nat} {ts : List String} (h : Inside tagBoth d ts m) :
    PlaceOk demoEnv o tagBoth d ts m := by
  obtain ⟨rfl, rfl⟩ := both_places h
  refine .combined (fun _ => "integer") 1 ⟨?_, ?_, ?_, nofun, nofun⟩ (by decide) nofun nofun
  · exact .intro (part_mergeable rfl (type := none) (properties := none) (required := none) (bounds := (none, none))
      (range := (none, none)) (items := none) (maxItems := none) (minProperties := none)
      (allOf := none) (by decide) nofun nofun nofun nofun nofun nofun nofun nofun) nofun nofun nofun nofun
  · rintro l ⟨⟩; simp
  · rintro l x ⟨⟩ hx
    simp only [List.mem_cons, List.mem_nil_iff, or_false] at hx
    rcases hx with rfl | rfl
    · exact .own tag_lower
    · exact .own tag_upper

/-- Every integer between the bounds comes out, although they stand in different members. -/
example (z : Int) (h1 : 1 ≤ z) (h9 : z ≤ 9) : ComesOut bothSchema (.num z) := by
  have hp : parsesCleanly bothSchema = true := by decide +kernel
  unfold parsesCleanly at hp
  split at hp
  · rename_i g s hparse
    refine ⟨g, s, hparse, ?_⟩
    have e1 : (100 : Int) ≤ (withGeneratorOptionsDefaults {}).maximumGenerationSteps := by decide
    have e2 : (100 : Int) ≤ (withGeneratorOptionsDefaults {}).cutoffGenerationSteps := by decide
    have hs : (JVal.num z).steps = 1 := rfl
    refine C75_attainable_values_are_generated_partial demoEnv 20 bothSchema tagBoth both_decodes demoWorld {} rfl
      (fun d ts m hm => both_ok hm) g s hparse (by simpa using hp) 1 _ ?_ (.inr (by rw [hs]; omega)) (.inr (by rw [hs]; omega))
    refine .allOf tagBoth [tagLower, tagUpper] _ rfl rfl rfl rfl rfl rfl ?_ fun m hm => ?_
    · intro x hx
      simp only [List.mem_cons, List.mem_nil_iff, or_false] at hx
      rcases hx with rfl | rfl <;> exact ⟨rfl, rfl⟩
    have hun := hm.unlisted (by
      intro x hx
      simp only [List.cons_append, List.nil_append, List.mem_cons, List.mem_nil_iff, or_false] at hx
      rcases hx with rfl | rfl | rfl <;> exact ⟨rfl, rfl⟩)
    have hty : m.type = some { single := "integer" } := (hm.type _).2 ⟨tagUpper, by simp, rfl⟩
    have pick : ∀ {α : Type} {f : SchemaNode → Option α} {x : α}, (∃ a ∈ [tagLower, tagUpper] ++ [{ tagBoth with allOf := none }], f a = some x) →
        f tagLower = some x ∨ f tagUpper = some x ∨ f { tagBoth with allOf := none } = some x := by
      rintro α f x ⟨a, ha, hx⟩
      simp only [List.cons_append, List.nil_append, List.mem_cons, List.mem_nil_iff, or_false] at ha
      rcases ha with rfl | rfl | rfl
      · exact .inl hx
      · exact .inr (.inl hx)
      · exact .inr (.inr hx)
    have hmin : ∀ x, m.minimum = some x → x = 1 := fun x hx => by
      rcases pick (hm.minimum.1 x hx) with h | h | h <;> cases h
      rfl
    have hmax : ∀ x, m.maximum = some x → x = 9 := fun x hx => by
      rcases pick (hm.maximum.1 x hx) with h | h | h <;> cases h
      rfl
    have hemin : ∀ x, m.exclusiveMinimum ≠ some x := fun x hx => by
      rcases pick (hm.exclusiveMinimum.1 x hx) with h | h | h <;> cases h
    have hemax : ∀ x, m.exclusiveMaximum ≠ some x := fun x hx => by
      rcases pick (hm.exclusiveMaximum.1 x hx) with h | h | h <;> cases h
    obtain ⟨a, ha, -⟩ := hm.minimum.2 tagLower (by simp) 1 rfl
    obtain ⟨b, hb, -⟩ := hm.maximum.2 tagUpper (by simp) 9 rfl
    refine .integer m z ⟨⟨hm.ref, hm.allOf, hm.anyOf, hm.oneOf, hm.ifN, hm.not⟩, hun.1, hun.2, _, hty, .inl ⟨rfl, rfl⟩⟩ ?_
    refine ⟨⟨?_, ?_, fun x hx => (hemin x hx).elim, fun x hx => (hemax x hx).elim, ?_⟩, hm.multipleOf, ⟨?_, ?_, fun x hx => (hemin x hx).elim,
      fun x hx => (hemax x hx).elim, ?_⟩, fun x hx => (hemin x hx).elim, fun x hx => (hemax x hx).elim, ?_, ?_⟩
    · intro x hx; rw [hmin x hx]; exact_mod_cast h1
    · intro x hx; rw [hmax x hx]; exact_mod_cast h9
    · intro x hx; have : m.multipleOf = some x := hx; rw [hm.multipleOf] at this; cases this
    · intro x hx; rw [hmin x hx]; norm_num
    · intro x hx; rw [hmax x hx]; norm_num
    · intro x hx; have : m.multipleOf = some x := hx; rw [hm.multipleOf] at this; cases this
    · intro h; exact absurd (.inl hb) (h b)
    · intro h; exact absurd (.inl ha) (h a)
  · cases hp

end Chaff
