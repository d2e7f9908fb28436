import Verif.Lemmas.PKeeps
/-!
# The parsers only use `parseSchemaNode` on the current node

Everything below `parseSchemaNode` uses the recursive calls only through `parseNode`, except `not` and `if`,
which also call `parseSchemaNode` again at the same depth.
-/

namespace Chaff
open Comp

section
variable (c : PEnv) (r1 r2 : PRec) (hn : r1.node = r2.node) (hf : r1.fuel = r2.fuel)
include hn

theorem parseInScope_congr : parseInScope c r1 = parseInScope c r2 := by
  unfold parseInScope
  rw [hn]

theorem parseItems_congr : parseItems c r1 = parseItems c r2 := by
  unfold parseItems
  rw [parseInScope_congr c r1 r2 hn]

theorem parseOrFalse_congr : parseOrFalse c r1 = parseOrFalse c r2 := by
  unfold parseOrFalse
  rw [parseInScope_congr c r1 r2 hn]

theorem parseTuple_congr : parseTuple c r1 = parseTuple c r2 := by
  funext i l
  induction l generalizing i with
  | nil => unfold parseTuple; rfl
  | cons x t ih =>
    unfold parseTuple
    rw [parseInScope_congr c r1 r2 hn, ih]

theorem parseProps_congr : parseProps c r1 = parseProps c r2 := by
  funext l
  induction l with
  | nil => unfold parseProps; rfl
  | cons x t ih => obtain ⟨k, n⟩ := x; unfold parseProps; rw [parseInScope_congr c r1 r2 hn, ih]

theorem parsePatProps_congr : parsePatProps c r1 = parsePatProps c r2 := by
  funext l
  induction l with
  | nil => unfold parsePatProps; rfl
  | cons x t ih => obtain ⟨k, n⟩ := x; unfold parsePatProps; rw [parseInScope_congr c r1 r2 hn, ih]

theorem parseAddProps_congr : parseAddProps c r1 = parseAddProps c r2 := by
  unfold parseAddProps
  rw [parseInScope_congr c r1 r2 hn]

theorem parseObject_congr : parseObject c r1 = parseObject c r2 := by
  unfold parseObject
  rw [parseProps_congr c r1 r2 hn, parsePatProps_congr c r1 r2 hn, parseAddProps_congr c r1 r2 hn]

include hf

theorem parseContains_congr : parseContains c r1 = parseContains c r2 := by
  unfold parseContains
  rw [parseInScope_congr c r1 r2 hn, hf]

theorem parseArray_congr : parseArray c r1 = parseArray c r2 := by
  unfold parseArray
  rw [parseItems_congr c r1 r2 hn, parseOrFalse_congr c r1 r2 hn, parseContains_congr c r1 r2 hn hf,
    parseTuple_congr c r1 r2 hn]

theorem parseType_congr : parseType c r1 = parseType c r2 := by
  unfold parseType
  rw [parseObject_congr c r1 r2 hn, parseArray_congr c r1 r2 hn hf]

theorem parseTypes_congr : parseTypes c r1 = parseTypes c r2 := by
  funext n l
  induction l with
  | nil => unfold parseTypes; rfl
  | cons x t ih => unfold parseTypes; rw [parseType_congr c r1 r2 hn hf, ih]

theorem parseMultipleType_congr : parseMultipleType c r1 = parseMultipleType c r2 := by
  unfold parseMultipleType
  rw [parseTypes_congr c r1 r2 hn hf]

theorem parseByType_congr : parseByType c r1 = parseByType c r2 := by
  unfold parseByType
  rw [parseType_congr c r1 r2 hn hf, parseMultipleType_congr c r1 r2 hn hf]

theorem parseAllOf_congr : parseAllOf c r1 = parseAllOf c r2 := by
  unfold parseAllOf
  rw [parseInScope_congr c r1 r2 hn, hf]

theorem parseBranch_congr : parseBranch c r1 = parseBranch c r2 := by
  unfold parseBranch
  rw [parseInScope_congr c r1 r2 hn, hf]

theorem parseBranches_congr : parseBranches c r1 = parseBranches c r2 := by
  funext n b i l
  induction l generalizing i with
  | nil => unfold parseBranches; rfl
  | cons x t ih => unfold parseBranches; rw [parseBranch_congr c r1 r2 hn hf, ih]

theorem parseCombination_congr : parseCombination c r1 = parseCombination c r2 := by
  unfold parseCombination
  rw [parseBranches_congr c r1 r2 hn hf, hf]

theorem parseIfBody_congr : parseIfBody c r1 = parseIfBody c r2 := by
  unfold parseIfBody
  rw [parseInScope_congr c r1 r2 hn, hf]

theorem compileIf_congr : compileIf c r1 = compileIf c r2 := by
  unfold compileIf
  rw [parseIfBody_congr c r1 r2 hn hf]

theorem compileIfs_congr : compileIfs c r1 = compileIfs c r2 := by
  funext n i l
  induction l generalizing i with
  | nil => unfold compileIfs; rfl
  | cons x t ih => unfold compileIfs; rw [compileIf_congr c r1 r2 hn hf, ih]

/-- `parseNot` calls `parseSchemaNode` only in a state of the same depth. -/
theorem parseNot_congr {d : Int} (hs : ∀ n s, s.depth = d → r1.schema n s = r2.schema n s) (n : SchemaNode) (s : PSt)
    (hd : s.depth = d) : parseNot c r1 n s = parseNot c r2 n s := by
  unfold parseNot
  rw [hf, hn]
  simp only [Comp.bind_apply]
  cases hp : partitionNots c r2.fuel 0 (collectNots n) s with
  | panic e => rfl
  | oom => rfl
  | ok parts s1 =>
    have E1 := keeps_partitionNots (c := c) _ _ _ _ _ _ hp
    dsimp only
    generalize hm : (ite (0 < parts.2.length) _ _ : P SchemaNode) = m
    have hk : Keeps c m := by
      rw [← hm]
      exact Keeps.ite (keeps_mergeNodes _ _) (Keeps.pure _)
    cases h2 : m s1 with
    | panic e => rfl
    | oom => rfl
    | ok base s2 =>
      have E2 := hk _ _ _ h2
      dsimp only
      split
      · exact hs _ _ (by rw [E2.depth, E1.depth]; exact hd)
      · rfl

/-- `parseIf` calls `parseSchemaNode` only in a state of the same depth. -/
theorem parseIf_congr {d : Int} (hs : ∀ n s, s.depth = d → r1.schema n s = r2.schema n s) (n : SchemaNode) (s : PSt)
    (hd : s.depth = d) : parseIf c r1 n s = parseIf c r2 n s := by
  unfold parseIf
  rw [compileIfs_congr c r1 r2 hn hf]
  simp only [Comp.bind_apply, gets]
  rw [hs _ _ hd]

theorem parseSchemaStep_congr {d : Int} (hs : ∀ n s, s.depth = d → r1.schema n s = r2.schema n s) (n : SchemaNode)
    (s : PSt) (hd : s.depth = d) : parseSchemaStep c r1 n s = parseSchemaStep c r2 n s := by
  unfold parseSchemaStep
  rw [parseAllOf_congr c r1 r2 hn hf, parseCombination_congr c r1 r2 hn hf, parseByType_congr c r1 r2 hn hf]
  cases checkUnsupported n with
  | some e => rfl
  | none =>
    dsimp only
    cases n.ref with
    | some ref => rfl
    | none =>
      dsimp only
      cases n.allOf with
      | some l => rfl
      | none =>
        dsimp only
        by_cases h1 : (n.oneOf.isSome ∨ n.anyOf.isSome)
        · rw [if_pos h1, if_pos h1]
        · rw [if_neg h1, if_neg h1]
          by_cases h2 : (n.not.isSome ∨ 0 < n.mergedNot.length)
          · rw [if_pos h2, if_pos h2]
            exact parseNot_congr c r1 r2 hn hf hs n s hd
          · rw [if_neg h2, if_neg h2]
            by_cases h3 : (n.ifN.isSome ∨ n.mergedIf.length ≠ 0)
            · rw [if_pos h3, if_pos h3]
              exact parseIf_congr c r1 r2 hn hf hs n s hd
            · rw [if_neg h3, if_neg h3]
end

theorem parseNodeStep_congr (c : PEnv) (f1 f2 : SchemaNode → PR)
    (h : ∀ n s, s.depth ≤ c.maxParseDepth → f1 n s = f2 n s) (n : SchemaNode) :
    parseNodeStep c f1 n = parseNodeStep c f2 n := by
  funext s
  unfold parseNodeStep
  simp only [Comp.bind_apply, modS_apply, gets]
  by_cases hd : s.depth + 1 > c.maxParseDepth
  · rw [if_pos hd, if_pos hd]
  · rw [if_neg hd, if_neg hd]
    simp only [Comp.bind_apply]
    rw [h _ _ (by show s.depth + 1 ≤ _; omega)]

end Chaff
