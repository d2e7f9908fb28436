import Verif.Props.RefCombine
import Verif.Props.Reach
/-!
# C56, C70: further schemas for which values that are not valid are generated
-/

namespace Chaff
open Comp

/-- `{"type": "array", "prefixItems": [{"type": "null"}], "items": false, "contains": {"type": "integer"}}`: `contains` is
skipped when no items beyond the tuple are allowed. -/
def containsClosed : JVal := .obj [("type", .str "array"), ("prefixItems", .arr [.obj [("type", .str "null")]]),
  ("items", .bool false), ("contains", .obj [("type", .str "integer")])]

theorem C56_contains_closed_violation : ∃ root v, decodeNode containsClosed = some root ∧
    quietlyYields containsClosed v = true ∧ ¬ Valid (patternMeaning demoEnv) root root v := by
  refine ⟨_, .arr [.null], rfl, by decide +kernel, ?_⟩
  rintro ⟨_, _, _, _, found, _, _, _, _, _, _, _, _, _, _, _, _, hsome, hcontains⟩
  obtain ⟨h1, h2⟩ := hsome [.null] { emptyNode with type := some { single := "integer" } } rfl rfl
  cases found with
  | nil => exact absurd h2 (by decide)
  | cons x t =>
    have hx : x = .null := List.mem_singleton.1 (h1.subset (List.mem_cons_self ..))
    have h := hcontains [.null] _ x rfl rfl (List.mem_cons_self ..)
    rw [hx] at h
    obtain ⟨_, _, _, _, _, _, hl⟩ := h
    have ht : HasType "integer" .null := hl.type _ rfl
    have key : ∀ t v, HasType t v → t = "integer" → v ≠ .null := by
      intro t v h
      cases h <;> intro ht <;> first | (exact absurd ht (by decide)) | nofun
    exact key _ _ ht rfl rfl

/-- `{"type": "array", "items": {"type": "null"}, "contains": {"type": "null"}, "maxContains": 1, "minItems": 3}`. -/
def containsMany : JVal := .obj [("type", .str "array"), ("items", .obj [("type", .str "null")]),
  ("contains", .obj [("type", .str "null")]), ("maxContains", .num 1), ("minItems", .num 3)]

/-- `maxContains` is not enforced: at most one item may be valid against `contains`, but four are. -/
theorem C56_max_contains_violation : ∃ root v c l, decodeNode containsMany = some root ∧
    quietlyYields containsMany v = true ∧ root.maxContains = some 1 ∧ root.contains = some c ∧ v = .arr l ∧
    l.length = 4 ∧ ∀ x ∈ l, Valid (patternMeaning demoEnv) root c x := by
  refine ⟨_, .arr [.null, .null, .null, .null], _, _, rfl, by decide +kernel, rfl, rfl, rfl, rfl, ?_⟩
  intro x hx
  have hx : x = .null := by simpa using hx
  subst hx
  exact null_valid _

/-- `{"$id": "https://example.com/a.json", "allOf": [{"$ref": "#/$defs/a"}], "$defs": {"a": {"type": "string"}}}`. -/
def namedAlias : JVal := .obj [("$id", .str "https://example.com/a.json"), ("allOf", .arr [.obj [("$ref", .str "#/$defs/a")]]),
  ("$defs", .obj [("a", .obj [("type", .str "string")])])]

/-- Nor is the document found when it has an identifier: the reference is reported, and an object is generated where the
definition asks for a string. -/
theorem C70_identifier_violation : ∃ root, decodeNode namedAlias = some root ∧
    root.allOf = some [{ emptyNode with ref := some "#/$defs/a" }] ∧ root.defs = some [("a", aliasDef)] ∧
    aliasDef.type = some { single := "string" } ∧
    faultyRun baselessEnv namedAlias (.obj []) = true := ⟨_, rfl, rfl, rfl, rfl, by decide +kernel⟩

end Chaff
