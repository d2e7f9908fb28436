import Verif.Props.Drawn
/-!
# C75: multiples, sized strings, formats and open objects

Schemas and values that meet the hypotheses of `C75_attainable_values_are_generated_partial` for the rules `multiple`,
`sized`, `duration` and `object` of `Attainable`.
-/

namespace Chaff
open Comp

/-- The schema parses without errors. -/
def parsesCleanly (schema : JVal) : Bool :=
  match parseSchema demoEnv 20 schema with
  | .done (.ok (_, none) s) => s.errors.length = 0
  | _ => false

/-- The value comes out for some random numbers, without a diagnostic. -/
def ComesOut (schema v : JVal) : Prop :=
  ∃ g s, parseSchema demoEnv 20 schema = .done (.ok (g, none) s) ∧
    ∃ (seeded ambient : Nat → Nat) (gfuel : Nat) (v' : JVal) (st : GSt),
      rootGenerate { demoWorld with seeded := seeded, ambient := ambient } {} (refEnv s) gfuel g = .ok v' st ∧
      SameJson v v' ∧ st.diags = []

theorem leaf_comes_out {schema v : JVal} {node : SchemaNode} (hroot : decodeNode schema = some node)
    (hsup : Supported demoEnv (withGeneratorOptionsDefaults {}) node node) (hleaf : ∀ d ts m, Inside node d ts m → m = node ∧ d = 0)
    (hp : parsesCleanly schema = true)
    (hv : Attainable demoEnv node demoWorld (withGeneratorOptionsDefaults {}) 0 [] 0 node v) (hs : v.steps = 1) :
    ComesOut schema v := by
  unfold parsesCleanly at hp
  split at hp
  · rename_i g s hparse
    refine ⟨g, s, hparse, ?_⟩
    refine C75_attainable_values_are_generated_partial demoEnv 20 schema node hroot demoWorld {} rfl ?_ g s
      hparse (by simpa using hp) 0 _ hv (.inr (by rw [hs]; decide)) (.inr (by rw [hs]; decide))
    intro d ts m hm
    obtain ⟨rfl, rfl⟩ := hleaf d ts m hm
    exact .plain hsup (by decide)
  · cases hp

/-- `{"type": "integer", "minimum": 0, "maximum": 20, "multipleOf": 5}`. -/
def fourFives : JVal := .obj [("type", .str "integer"), ("minimum", .num 0), ("maximum", .num 20), ("multipleOf", .num 5)]
def fourFivesNode : SchemaNode :=
  { emptyNode with type := some { single := "integer" }, minimum := some 0, maximum := some 20, multipleOf := some 5 }

/-- Fifteen comes out; zero and twenty never do (`C75_multiple_violation`). -/
example : ComesOut fourFives (.num ((15 : Int) : Rat)) := by
  refine leaf_comes_out (node := fourFivesNode) rfl ?_ ?_ (by decide +kernel) ?_ rfl
  · exact {
      covered := ⟨rfl, rfl, rfl, rfl, rfl, rfl, rfl, rfl, (by intro x hx; cases hx), rfl, rfl, rfl, rfl⟩
      allOf := rfl, anyOf := rfl, ref := nofun, definitions := nofun, defs := nofun, enum := nofun
      const := nofun
      types := ⟨by intro t ht _; cases ht; decide, by intro t l ht hl; cases ht; cases hl⟩
      object := ⟨nofun, nofun, nofun, nofun, nofun, nofun⟩
      array := ⟨nofun, nofun, nofun, fun _ => rfl, nofun, nofun⟩
      string := ⟨nofun, nofun⟩
      number := by
        refine ⟨.inl rfl, ⟨?_, ?_, nofun, nofun, ?_⟩, fun _ h => (h rfl).elim, fun _ h => (h rfl).elim⟩
        · intro x hx; cases hx; norm_num
        · intro x hx; cases hx; norm_num
        · intro x hx; cases hx; norm_num }
  · intro d ts m hm
    refine Inside.places (P := fun d m => m = fourFivesNode ∧ d = 0) ⟨rfl, rfl⟩ ?_ hm
    intro d n m hn hm
    rw [hn.1] at hm
    cases hm
  · refine .multiple _ 15 ⟨⟨rfl, rfl, rfl, rfl, rfl, rfl⟩, rfl, rfl, _, rfl, .inl ⟨rfl, rfl⟩⟩ ⟨?_, rfl, rfl, ?_⟩
    · refine ⟨?_, ?_, nofun, nofun, ?_⟩
      · intro x hx; cases hx; norm_num
      · intro x hx; cases hx; norm_num
      · intro x hx; cases hx; exact ⟨3, by norm_num⟩
    · exact ⟨0, 20, 5, by norm_num [numKeywords, fourFivesNode], by norm_num [numKeywords, fourFivesNode], by norm_num [numKeywords, fourFivesNode], by decide, by decide, by decide, by decide, by decide, by decide⟩

/-- `{"type": "string", "minLength": 20, "maxLength": 22}`. -/
def aboutTwenty : JVal := .obj [("type", .str "string"), ("minLength", .num 20), ("maxLength", .num 22)]
def aboutTwentyNode : SchemaNode :=
  { emptyNode with type := some { single := "string" }, minLength := some 20, maxLength := some 22 }

/-- Two sentences of twelve characters, cut after 22. -/
example : ComesOut aboutTwenty (.str (String.ofList "Lorem ipsum.Lorem ipsu".toList)) := by
  refine leaf_comes_out (node := aboutTwentyNode) rfl ?_ ?_ (by decide +kernel) ?_ rfl
  · exact {
      covered := ⟨rfl, rfl, rfl, rfl, rfl, rfl, rfl, rfl, (by intro x hx; cases hx), rfl, rfl, rfl, rfl⟩
      allOf := rfl, anyOf := rfl, ref := nofun, definitions := nofun, defs := nofun, enum := nofun
      const := nofun
      types := ⟨by intro t ht _; cases ht; decide, by intro t l ht hl; cases ht; cases hl⟩
      object := ⟨nofun, nofun, nofun, nofun, nofun, nofun⟩
      array := ⟨nofun, nofun, nofun, fun _ => rfl, nofun, nofun⟩
      string := ⟨by intro k hk; cases hk; decide, nofun⟩
      number := by
        refine ⟨.inl rfl, ⟨nofun, nofun, nofun, nofun, nofun⟩, nofun, ?_⟩
        intro hf
        exact absurd (congrFun (congrArg FP.rnd hf) (1 / 3)) (by decide +kernel) }
  · intro d ts m hm
    refine Inside.places (P := fun d m => m = aboutTwentyNode ∧ d = 0) ⟨rfl, rfl⟩ ?_ hm
    intro d n m hn hm
    rw [hn.1] at hm
    cases hm
  · refine .sized _ 0 [1] _ ⟨⟨rfl, rfl, rfl, rfl, rfl, rfl⟩, rfl, rfl, _, rfl, .inl ⟨rfl, rfl⟩⟩ rfl rfl (by decide) ?_ ?_ (by decide) ?_ nofun
    · intro j _; show "Lorem ipsum." ≠ ""; decide
    · intro j hj
      have : j = 0 := by simpa using hj
      subst this
      decide
    · intro x hx; cases hx; decide

/-- `{"type": "string", "format": "duration"}`. -/
def someDays : JVal := .obj [("type", .str "string"), ("format", .str "duration")]
def someDaysNode : SchemaNode := { emptyNode with type := some { single := "string" }, format := some "duration" }

example : ComesOut someDays (.str "P31D") := by
  refine leaf_comes_out (node := someDaysNode) rfl ?_ ?_ (by decide +kernel) ?_ rfl
  · exact {
      covered := ⟨rfl, rfl, rfl, rfl, rfl, rfl, rfl, rfl, (by intro x hx; cases hx), rfl, rfl, rfl, rfl⟩
      allOf := rfl, anyOf := rfl, ref := nofun, definitions := nofun, defs := nofun, enum := nofun
      const := nofun
      types := ⟨by intro t ht _; cases ht; decide, by intro t l ht hl; cases ht; cases hl⟩
      object := ⟨nofun, nofun, nofun, nofun, nofun, nofun⟩
      array := ⟨nofun, nofun, nofun, fun _ => rfl, nofun, nofun⟩
      string := ⟨nofun, nofun⟩
      number := by
        refine ⟨.inl rfl, ⟨nofun, nofun, nofun, nofun, nofun⟩, nofun, ?_⟩
        intro hf
        exact absurd (congrFun (congrArg FP.rnd hf) (1 / 3)) (by decide +kernel) }
  · intro d ts m hm
    refine Inside.places (P := fun d m => m = someDaysNode ∧ d = 0) ⟨rfl, rfl⟩ ?_ hm
    intro d n m hn hm
    rw [hn.1] at hm
    cases hm
  · exact .duration _ 31 ⟨⟨rfl, rfl, rfl, rfl, rfl, rfl⟩, rfl, rfl, _, rfl, .inl ⟨rfl, rfl⟩⟩ rfl (by decide)

/-- `{"type": "object", "properties": {"on": {"type": "boolean"}}}`. -/
def openSwitch : JVal := .obj [("type", .str "object"), ("properties", .obj [("on", .obj [("type", .str "boolean")])])]
def openSwitchOn : SchemaNode := { emptyNode with type := some { single := "boolean" } }
def openSwitchNode : SchemaNode :=
  { emptyNode with type := some { single := "object" }, properties := some [("on", openSwitchOn)] }

/-- An object that says nothing about further members, and a value of declared members only. -/
example : ComesOut openSwitch (.obj [("on", .bool true)]) := by
  have hp : parsesCleanly openSwitch = true := by decide +kernel
  unfold parsesCleanly at hp
  split at hp
  · rename_i g s hparse
    refine ⟨g, s, hparse, ?_⟩
    refine C75_attainable_values_are_generated_partial demoEnv 20 openSwitch openSwitchNode rfl demoWorld {} rfl ?_ g s
      hparse (by simpa using hp) 0 _ ?_ (.inr (by decide)) (.inr (by decide))
    · intro d ts m hm
      have hpl : d ≤ 1 ∧ (m = openSwitchNode ∧ d = 0 ∨ m = openSwitchOn ∧ d = 1) := by
        refine Inside.places (P := fun d m => d ≤ 1 ∧ (m = openSwitchNode ∧ d = 0 ∨ m = openSwitchOn ∧ d = 1)) (by simp) ?_ hm
        intro d n m hn hm
        have e1 : openSwitchNode.children = [openSwitchOn] := rfl
        have e2 : openSwitchOn.children = [] := rfl
        rcases hn.2 with ⟨rfl, rfl⟩ | ⟨rfl, rfl⟩
        · rw [e1] at hm
          exact ⟨by omega, .inr ⟨List.mem_singleton.1 hm, rfl⟩⟩
        · rw [e2] at hm; cases hm
      refine .plain ?_ (by have := hpl.1; show (d : Int) < 100; omega)
      have hnum : ∀ n : SchemaNode, n.multipleOf = none → n.minimum = none → n.maximum = none →
          n.exclusiveMinimum = none → n.exclusiveMaximum = none → NumberSupported FP.exact n := by
        intro n h1 h2 h3 h4 h5
        refine ⟨.inl rfl, ⟨?_, ?_, ?_, ?_, ?_⟩, ?_, ?_⟩
        · intro x hx; exact absurd (h2.symm.trans hx) nofun
        · intro x hx; exact absurd (h3.symm.trans hx) nofun
        · intro x hx; exact absurd (h4.symm.trans hx) nofun
        · intro x hx; exact absurd (h5.symm.trans hx) nofun
        · intro x hx; exact absurd (h1.symm.trans hx) nofun
        · intro _ _ x hx; exact absurd (h1.symm.trans hx) nofun
        · intro hf
          exact absurd (congrFun (congrArg FP.rnd hf) (1 / 3)) (by decide +kernel)
      rcases hpl.2 with ⟨rfl, _⟩ | ⟨rfl, _⟩
      · exact {
          covered := ⟨rfl, rfl, rfl, rfl, rfl, rfl, rfl, rfl, (by intro x hx; cases hx), rfl, rfl, rfl, rfl⟩
          allOf := rfl, anyOf := rfl, ref := nofun, definitions := nofun, defs := nofun, enum := nofun
          const := nofun
          types := ⟨by intro t ht _; cases ht; decide, by intro t l ht hl; cases ht; cases hl⟩
          object := {
            patterns := nofun
            names := by
              intro p hp
              cases hp
              refine ⟨by decide, ?_⟩
              intro k hk
              have hk : k = "on" := by simpa [keysKV] using hk
              subst hk
              exact ⟨by unfold PlainName; decide, short_not_invented (by decide)⟩
            requiredNames := nofun, requiredDeclared := nofun, maximum := nofun, closedMinimum := nofun }
          array := ⟨nofun, nofun, nofun, fun _ => rfl, nofun, nofun⟩
          string := ⟨nofun, nofun⟩
          number := hnum _ rfl rfl rfl rfl rfl }
      · exact {
          covered := ⟨rfl, rfl, rfl, rfl, rfl, rfl, rfl, rfl, (by intro x hx; cases hx), rfl, rfl, rfl, rfl⟩
          allOf := rfl, anyOf := rfl, ref := nofun, definitions := nofun, defs := nofun, enum := nofun
          const := nofun
          types := ⟨by intro t ht _; cases ht; decide, by intro t l ht hl; cases ht; cases hl⟩
          object := ⟨nofun, nofun, nofun, nofun, nofun, nofun⟩
          array := ⟨nofun, nofun, nofun, fun _ => rfl, nofun, nofun⟩
          string := ⟨nofun, nofun⟩
          number := hnum _ rfl rfl rfl rfl rfl }
    · refine .object openSwitchNode _ ⟨⟨rfl, rfl, rfl, rfl, rfl, rfl⟩, rfl, rfl, _, rfl, .inl ⟨rfl, rfl⟩⟩ (by decide) (by decide)
        (by decide) (by decide) (by decide) ⟨by decide, by decide, by decide⟩ ?_
      intro p k x sub hp hx hl
      cases hp
      simp only [List.mem_cons, Prod.mk.injEq, List.mem_nil_iff, or_false] at hx
      obtain ⟨rfl, rfl⟩ := hx
      cases hl
      exact .boolean openSwitchOn true ⟨⟨rfl, rfl, rfl, rfl, rfl, rfl⟩, rfl, rfl, _, rfl, .inl ⟨rfl, rfl⟩⟩
  · cases hp

end Chaff
