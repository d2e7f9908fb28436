import Verif.Props.Types
/-!
# C55: keyword dispatch is total and ordered
-/

namespace Chaff
open Comp

/-- What decides how a schema is read. -/
inductive Reading where
  | unsupported | reference | allOf | alternatives | negation | conditional | enumeration | constant
  | typeList | typeName | inferredObject | inferredString | inferredNumber | inferredArray | anyType
deriving DecidableEq, Repr

/-- The precedence of the keywords: the first line that applies decides. -/
def precedence (n : SchemaNode) : List (Prop × Reading) :=
  [(n.dependentRequired ≠ [] ∨ n.dependentSchemas ≠ [], .unsupported),
   (n.ref ≠ none, .reference),
   (n.allOf ≠ none, .allOf),
   (n.oneOf ≠ none ∨ n.anyOf ≠ none, .alternatives),
   (n.not ≠ none ∨ n.mergedNot ≠ [], .negation),
   (n.ifN ≠ none ∨ n.mergedIf ≠ [], .conditional),
   (∃ v l, n.enum = some (v :: l), .enumeration),
   (n.const ≠ none, .constant),
   (∃ t ts, n.type = some t ∧ t.multiple = some ts, .typeList),
   (∃ t, n.type = some t ∧ t.single ≠ "", .typeName),
   (n.properties ≠ none ∨ n.patternProperties ≠ none ∨ n.minProperties ≠ none ∨ n.maxProperties ≠ none ∨
      n.required ≠ none ∨ (∃ d, n.additionalProperties = some d ∧ d.schema ≠ none), .inferredObject),
   (n.pattern ≠ none ∨ n.format ≠ none ∨ n.minLength ≠ none ∨ n.maxLength ≠ none, .inferredString),
   (n.minimum ≠ none ∨ n.maximum ≠ none ∨ n.exclusiveMinimum ≠ none ∨ n.exclusiveMaximum ≠ none ∨
      n.multipleOf ≠ none, .inferredNumber),
   ((∃ d, n.items = some d ∧ d.node ≠ none) ∨ n.minItems ≠ none ∨ n.maxItems ≠ none ∨ n.contains ≠ none ∨
      n.minContains ≠ none ∨ n.maxContains ≠ none ∨ n.prefixItems ≠ none ∨ n.additionalItems ≠ none ∨
      n.unevaluatedItems ≠ none, .inferredArray),
   (True, .anyType)]

/-- `n` is read as `h`: the line of `h` applies and no line before it does. -/
def ReadAs (n : SchemaNode) (h : Reading) : Prop :=
  ∃ before line after, precedence n = before ++ (line, h) :: after ∧ line ∧ ∀ p ∈ before, ¬ p.1

/-- The parser for each reading. -/
def parserOf (c : PEnv) (r : PRec) (n : SchemaNode) : Reading → PR
  | .unsupported => nullErr ((checkUnsupported n).getD "")
  | .reference => parseReference c (n.ref.getD "")
  | .allOf => parseAllOf c r n (n.allOf.getD [])
  | .alternatives => parseCombination c r n
  | .negation => parseNot c r n
  | .conditional => parseIf c r n
  | .enumeration => parseEnum c n (n.enum.getD [])
  | .constant => parseConst c n (n.const.getD .null)
  | .typeList => parseMultipleType c r n ((n.type.bind (·.multiple)).getD [])
  | .typeName => parseType c r (getZeroIfNil n.type {}).single n
  | .inferredObject => parseObject c r n
  | .inferredString => parseString c n
  | .inferredNumber => parseNumberNode c n false
  | .inferredArray => parseArray c r n
  | .anyType => parseMultipleType c r { n with type := some { getZeroIfNil n.type {} with multiple := some typeAll } } typeAll

/-- Finding the first line that applies. -/
theorem first_line : ∀ (l : List (Prop × Reading)), (True, Reading.anyType) ∈ l →
    ∃ before line h after, l = before ++ (line, h) :: after ∧ line ∧ ∀ p ∈ before, ¬ p.1
  | [], h => by cases h
  | p :: t, h => by
    by_cases hp : p.1
    · exact ⟨[], p.1, p.2, t, rfl, hp, by simp⟩
    · have ht : (True, Reading.anyType) ∈ t := by
        rcases List.mem_cons.1 h with rfl | h
        · exact absurd trivial hp
        · exact h
      obtain ⟨b, ln, h', a, he, hl, hb⟩ := first_line t ht
      refine ⟨p :: b, ln, h', a, by rw [he]; rfl, hl, ?_⟩
      intro q hq
      rcases List.mem_cons.1 hq with rfl | hq
      · exact hp
      · exact hb q hq

theorem first_line_unique : ∀ {b b' : List (Prop × Reading)} {ln ln' : Prop} {h h' : Reading} {a a' : List (Prop × Reading)},
    b ++ (ln, h) :: a = b' ++ (ln', h') :: a' → ln → ln' → (∀ p ∈ b, ¬ p.1) → (∀ p ∈ b', ¬ p.1) → h = h'
  | [], [], _, _, _, _, _, _, he, _, _, _, _ => by
    injection he with he _
    injection he
  | [], q :: b', ln, _, h, _, _, _, he, hl, _, _, hb' => by
    injection he with he _
    exact absurd hl (by have := hb' q List.mem_cons_self; rw [← he] at this; exact this)
  | p :: b, [], _, ln', _, h', _, _, he, _, hl', hb, _ => by
    injection he with he _
    exact absurd hl' (by have := hb p List.mem_cons_self; rw [he] at this; exact this)
  | p :: b, q :: b', _, _, _, _, _, _, he, hl, hl', hb, hb' => by
    injection he with _ he
    exact first_line_unique he hl hl' (fun x hx => hb x (List.mem_cons_of_mem _ hx))
      (fun x hx => hb' x (List.mem_cons_of_mem _ hx))

/-- **C55, total and ordered.** Every schema is read in exactly one way. -/
theorem C55_exactly_one_reading (n : SchemaNode) : ∃! h, ReadAs n h := by
  obtain ⟨b, ln, h, a, he, hl, hb⟩ := first_line (precedence n) (by simp [precedence])
  refine ⟨h, ⟨b, ln, a, he, hl, hb⟩, ?_⟩
  rintro h' ⟨b', ln', a', he', hl', hb'⟩
  exact first_line_unique (he'.symm.trans he) hl' hl hb' hb

theorem readAs_trans {n : SchemaNode} {c : PEnv} {r : PRec} {l : List (Prop × Reading)} {X Y : PR} (hxy : X = Y)
    (h : ∀ b ln h a, l = b ++ (ln, h) :: a → ln → (∀ p ∈ b, ¬ p.1) → Y = parserOf c r n h) :
    ∀ b ln h a, l = b ++ (ln, h) :: a → ln → (∀ p ∈ b, ¬ p.1) → X = parserOf c r n h := hxy ▸ h

/-- Peeling off lines that do not apply. -/
theorem peel {n : SchemaNode} {c : PEnv} {r : PRec} {X : PR} {q : Prop} {k : Reading} {l : List (Prop × Reading)}
    (yes : q → X = parserOf c r n k)
    (no : ¬ q → ∀ b ln h a, l = b ++ (ln, h) :: a → ln → (∀ p ∈ b, ¬ p.1) → X = parserOf c r n h) :
    ∀ b ln h a, (q, k) :: l = b ++ (ln, h) :: a → ln → (∀ p ∈ b, ¬ p.1) → X = parserOf c r n h := by
  intro b ln h a he hl hb
  cases b with
  | nil =>
    injection he with he _
    injection he with e1 e2
    subst e1 e2
    exact yes hl
  | cons p t =>
    injection he with e1 e2
    subst e1
    exact no (hb _ List.mem_cons_self) t ln h a e2 hl (fun x hx => hb x (List.mem_cons_of_mem _ hx))

/-- **C55, dispatch.** A schema that is read as `h` is handed to the parser of `h` and to no other. -/
theorem C55_dispatch (c : PEnv) (r : PRec) (n : SchemaNode) (h : Reading) (hr : ReadAs n h) :
    parseSchemaStep c r n = parserOf c r n h := by
  obtain ⟨b, ln, a, he, hl, hb⟩ := hr
  refine (peel ?_ ?_) b ln h a he hl hb <;> clear he hl hb a ln b h
  · intro hq
    unfold parseSchemaStep parserOf
    cases hc : checkUnsupported n with
    | some e => rfl
    | none =>
      unfold checkUnsupported at hc
      split at hc
      · cases hc
      · split at hc
        · cases hc
        · rename_i h1 h2
          simp only [not_lt, Nat.le_zero, List.length_eq_zero_iff] at h1 h2
          rcases hq with hq | hq
          · exact absurd h1 hq
          · exact absurd h2 hq
  intro h0
  have hu : checkUnsupported n = none := by
    push Not at h0
    unfold checkUnsupported
    rw [h0.1, h0.2]
    rfl
  unfold parseSchemaStep
  rw [hu]
  dsimp only
  refine peel ?_ ?_
  · intro hq
    obtain ⟨x, hx⟩ := Option.ne_none_iff_exists'.1 hq
    rw [hx]
    dsimp only
    unfold parserOf
    rw [hx]
    rfl
  intro h1
  push Not at h1
  rw [h1]
  dsimp only
  refine peel ?_ ?_
  · intro hq
    obtain ⟨x, hx⟩ := Option.ne_none_iff_exists'.1 hq
    rw [hx]
    dsimp only
    unfold parserOf
    rw [hx]
    rfl
  intro h2
  push Not at h2
  rw [h2]
  dsimp only
  refine peel ?_ ?_
  · intro hq
    rw [if_pos]
    · rfl
    · simpa [Option.isSome_iff_ne_none] using hq
  intro h3
  rw [if_neg (by simpa [Option.isSome_iff_ne_none] using h3)]
  refine peel ?_ ?_
  · intro hq
    rw [if_pos]
    · rfl
    · simpa [Option.isSome_iff_ne_none, List.length_pos_iff] using hq
  intro h4
  rw [if_neg (by simpa [Option.isSome_iff_ne_none, List.length_pos_iff] using h4)]
  refine peel ?_ ?_
  · intro hq
    rw [if_pos]
    · rfl
    · simpa [Option.isSome_iff_ne_none] using hq
  intro h5
  rw [if_neg (by simpa [Option.isSome_iff_ne_none] using h5)]
  refine peel ?_ ?_
  · rintro ⟨v, l, hv⟩
    rw [hv]
    dsimp only
    unfold parserOf
    rw [hv]
    rfl
  intro h6
  refine readAs_trans (Y := match n.const with | some v => parseConst c n v | none => parseByType c r n) ?_ ?_
  · rcases he : n.enum with _ | (_ | ⟨v, l⟩)
    · rfl
    · rfl
    · exact absurd ⟨v, l, he⟩ h6
  refine peel ?_ ?_
  · intro hq
    obtain ⟨x, hx⟩ := Option.ne_none_iff_exists'.1 hq
    rw [hx]
    dsimp only
    unfold parserOf
    rw [hx]
    rfl
  intro h7
  push Not at h7
  rw [h7]
  dsimp only
  unfold parseByType
  refine peel ?_ ?_
  · rintro ⟨t, ts, ht, hts⟩
    unfold parserOf
    rw [ht]
    dsimp only [Option.bind]
    rw [hts]
    rfl
  intro h8
  have e8 : n.type.bind (·.multiple) = none := by
    cases ht : n.type with
    | none => rfl
    | some t =>
      dsimp only [Option.bind]
      cases hm : t.multiple with
      | none => rfl
      | some ts => exact absurd ⟨t, ts, ht, hm⟩ h8
  rw [e8]
  dsimp only
  refine peel ?_ ?_
  · rintro ⟨t, ht, hs⟩
    unfold parserOf
    rw [ht]
    exact if_pos hs
  intro h9
  have e9 : (getZeroIfNil n.type {}).single = "" := by
    cases ht : n.type with
    | none => rfl
    | some t =>
      by_contra hs
      exact h9 ⟨t, ht, hs⟩
  have e9' : ∀ X Y : PR, (if (getZeroIfNil n.type {}).single ≠ "" then X else Y) = Y := fun X Y => if_neg (by rw [e9]; simp)
  rw [e9']
  have bindSchema : ∀ o : Option (NodeOrFalse SchemaNode), (o.bind (·.schema)).isSome = true ↔ ∃ d, o = some d ∧ d.schema ≠ none := by
    intro o
    cases o with
    | none => simp
    | some d => simp [Option.bind, Option.isSome_iff_ne_none]
  have bindNode : ∀ o : Option (ItemsData SchemaNode), (o.bind (·.node)).isSome = true ↔ ∃ d, o = some d ∧ d.node ≠ none := by
    intro o
    cases o with
    | none => simp
    | some d => simp [Option.bind, Option.isSome_iff_ne_none]
  unfold inferType
  simp only [bindSchema, bindNode, Option.isSome_iff_ne_none]
  refine peel ?_ ?_
  · intro hq
    rw [if_pos hq]
    simp only [String.reduceEq, if_false]
    rfl
  intro h10
  rw [if_neg h10]
  refine peel ?_ ?_
  · intro hq
    rw [if_pos hq]
    simp only [String.reduceEq, if_false]
    rfl
  intro h11
  rw [if_neg h11]
  refine peel ?_ ?_
  · intro hq
    rw [if_pos hq]
    simp only [String.reduceEq, if_false]
    rfl
  intro h12
  rw [if_neg h12]
  refine peel ?_ ?_
  · intro hq
    rw [if_pos hq]
    simp only [String.reduceEq, if_false]
    rfl
  intro h13
  rw [if_neg h13]
  refine peel ?_ ?_
  · intro _
    simp only [if_true]
    rfl
  · intro hf
    exact absurd trivial hf

/-- **C55, references stand alone.** Next to `$ref` every other keyword is ignored. -/
theorem C55_reference_siblings_ignored (c : PEnv) (k : Nat) (n n' : SchemaNode) (ref : String) (h : n.ref = some ref)
    (h' : n'.ref = some ref) (hd : n.dependentRequired = [] ∧ n.dependentSchemas = [])
    (hd' : n'.dependentRequired = [] ∧ n'.dependentSchemas = []) (s : PSt) :
    (parseRec c (k + 1)).schema n s = (parseRec c (k + 1)).schema n' s := by
  have key : ∀ m : SchemaNode, m.ref = some ref → m.dependentRequired = [] ∧ m.dependentSchemas = [] →
      (parseRec c (k + 1)).schema m = parseReference c ref := by
    intro m hm hmd
    change parseSchemaStep c _ m = _
    rw [C55_dispatch c _ m .reference ⟨[_], _, _, rfl, by rw [hm]; simp, by simp [hmd.1, hmd.2]⟩]
    unfold parserOf
    rw [hm]
    rfl
  rw [key n h hd, key n' h' hd']

/-- **C55, unsupported keywords are reported.** -/
theorem C55_unsupported_reported (c : PEnv) (k : Nat) (n : SchemaNode) (s : PSt)
    (h : n.dependentRequired ≠ [] ∨ n.dependentSchemas ≠ []) :
    ∃ e, (parseRec c (k + 1)).schema n s = .ok (.null, some e) s := by
  change ∃ e, parseSchemaStep c _ n s = _
  rw [C55_dispatch c _ n .unsupported ⟨[], _, _, rfl, h, by simp⟩]
  exact ⟨_, rfl⟩

/-- **C55, inferred types.** A schema without a type whose keywords are about strings (and not about objects) generates
strings; likewise for numbers, arrays and objects. -/
theorem C55_inferred_type_generated (c : PEnv) (k : Nat) (n : SchemaNode) (h : Reading) (t : String) (hr : ReadAs n h)
    (ht : (h, t) ∈ [(Reading.inferredObject, "object"), (.inferredString, "string"), (.inferredNumber, "number"),
      (.inferredArray, "array")]) (s s' : PSt) (g : Gen) (hp : (parseRec c (k + 1)).schema n s = .ok (g, none) s')
    (ctx : Ctx) (j : Nat) (st st' : GSt) (v : JVal) (hg : generate ctx j g st = .ok v st') :
    HasType t v ∨ (v = .null ∧ PastCutoff ctx st) := by
  change parseSchemaStep c (parseRec c k) n s = _ at hp
  rw [C55_dispatch c _ n h hr] at hp
  have key : parserOf c (parseRec c k) n h = parseType c (parseRec c k) t n ∧ t ∈ jsonTypes := by
    simp only [List.mem_cons, Prod.mk.injEq, List.not_mem_nil, or_false] at ht
    rcases ht with ⟨rfl, rfl⟩ | ⟨rfl, rfl⟩ | ⟨rfl, rfl⟩ | ⟨rfl, rfl⟩ <;> exact ⟨rfl, by decide⟩
  rw [key.1] at hp
  exact parseType_typed key.2 hp hg

/-! ## Concrete cases -/

/-- `{"minLength": 2, "minimum": 3}` is read as a string schema. -/
example : ReadAs { minLength := some 2, minimum := some 3 } .inferredString :=
  ⟨[_, _, _, _, _, _, _, _, _, _, _], _, _, rfl, by simp, by simp⟩

/-- `{"const": 1, "enum": [2], "type": "string"}` is read as an enumeration. -/
example : ReadAs { const := some (.num 1), enum := some [.num 2], type := some { single := "string" } } .enumeration :=
  ⟨[_, _, _, _, _, _], _, _, rfl, ⟨_, _, rfl⟩, by simp⟩

/-- `{"minLength": 3}` generates a string of at least three characters. -/
example : (match parseThenGenerate demoEnv demoWorld {} (.obj [("minLength", .num 3)]) with
    | some (.str s) => decide (3 ≤ s.length) | _ => false) = true := by decide +kernel

/-- A misspelt type is not reported: `{"type": "strnig"}` parses without error and generates null. -/
theorem C55_unknown_type_violation :
    yields .null (parseThenGenerate demoEnv demoWorld {} (.obj [("type", .str "strnig")])) = true := by decide +kernel

/-- An empty `enum` allows nothing, but the code treats it as absent. -/
theorem C55_empty_enum_violation :
    yields (.str "Lorem ipsum.") (parseThenGenerate demoEnv demoWorld {}
      (.obj [("type", .str "string"), ("enum", .arr [])])) = true := by decide +kernel

end Chaff
