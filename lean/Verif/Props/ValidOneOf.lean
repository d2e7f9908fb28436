import Verif.Props.ValidAny
/-!
# C56 and C75 with a choice between schemas of different types

A schema that has nothing but `oneOf`.  Two of the alternatives overlap in the empty list, which is therefore not valid; the
code tests for this and draws again.
-/

namespace Chaff
open Comp

/-- `{"oneOf": [{"type": "boolean"}, {"type": "array", "items": {"type": "boolean"}, "maxItems": 3}, {"type": "array",
"items": {"type": "null"}, "maxItems": 3}]}`. -/
def kindSchema : JVal := .obj [("oneOf", .arr [
  .obj [("type", .str "boolean")],
  .obj [("type", .str "array"), ("items", .obj [("type", .str "boolean")]), ("maxItems", .num 3)],
  .obj [("type", .str "array"), ("items", .obj [("type", .str "null")]), ("maxItems", .num 3)]])]

def kindFlags : SchemaNode := partSchema "array" none none (none, none) (none, none) (some mixedFlag) (some 3) none none
def kindNulls : SchemaNode := partSchema "array" none none (none, none) (none, none) (some mixedNull) (some 3) none none
def kindRoot : SchemaNode := { emptyNode with oneOf := some [mixedFlag, kindFlags, kindNulls] }

set_option maxHeartbeats 4000000 in
theorem kind_decodes : decodeNode kindSchema = some kindRoot := rfl

/-- Whether the value has the type that the schema states. -/
def kindTest (m : List (String × JVal)) (v : JVal) : Bool :=
  match lookupKV m "type", v with
  | some (.str "boolean"), .bool _ => true
  | some (.str "null"), .null => true
  | some (.str "array"), .arr _ => true
  | _, _ => false

/-- A validator that looks at `type`, `items` and `maxItems`. -/
def kindValidator : JVal → JVal → Bool
  | .obj m, .arr l => kindTest m (.arr l) &&
    (match lookupKV m "maxItems" with | some (.num x) => decide ((l.length : Rat) ≤ x) | _ => true) &&
    (match lookupKV m "items" with | some (.obj i) => l.all (kindTest i) | _ => true)
  | .obj m, v => kindTest m v
  | _, _ => true

/-- The validation library, as far as these schemas need it. -/
def kindEnv : PEnv := { demoEnv with compile := fun resources key => (lookupKV resources key).map kindValidator }

theorem kind_leaf {n root : SchemaNode} {v : JVal} (hn : n = mixedFlag ∨ n = mixedNull) (ht : TypeOk n v) :
    Valid (patternMeaning kindEnv) root n v := by
  rcases hn with rfl | rfl <;>
  · refine .basic _ _ emptyNode emptyNode [] ⟨rfl, rfl, rfl, rfl, rfl, rfl, rfl, rfl, nofun, rfl, rfl, rfl, rfl⟩ ?_ nofun nofun nofun
      nofun nofun nofun nofun nofun nofun nofun nofun nofun
    refine ⟨ht, nofun, nofun, ?_, nofun, nofun, nofun, nofun, nofun, nofun, nofun, nofun, nofun, nofun, nofun⟩
    intro q hq
    exact ⟨nofun, nofun, nofun, nofun, nofun⟩

theorem flag_type {v : JVal} : TypeOk mixedFlag v ↔ ∃ b, v = .bool b := by
  constructor
  · intro h
    have h : HasType "boolean" v := h _ rfl
    generalize ht : "boolean" = t at h
    cases h <;> first | exact ⟨_, rfl⟩ | exact absurd ht (by decide)
  · rintro ⟨b, rfl⟩ t ⟨⟩
    exact HasType.boolean b

theorem null_type {v : JVal} : TypeOk mixedNull v ↔ v = .null := by
  constructor
  · intro h
    have h : HasType "null" v := h _ rfl
    generalize ht : "null" = t at h
    cases h <;> first | rfl | exact absurd ht (by decide)
  · rintro rfl t ⟨⟩
    exact HasType.null

theorem kind_list {n sub root : SchemaNode} {l : List JVal} (hn : n = kindFlags ∧ sub = mixedFlag ∨ n = kindNulls ∧ sub = mixedNull)
    (hl : l.length ≤ 3) (hi : ∀ x ∈ l, TypeOk sub x) : Valid (patternMeaning kindEnv) root n (.arr l) := by
  have hsub : sub = mixedFlag ∨ sub = mixedNull := hn.imp (·.2) (·.2)
  have hitems : ∀ d s, n.items = some d → d.node = some s → s = sub := by
    rcases hn with ⟨rfl, rfl⟩ | ⟨rfl, rfl⟩ <;> (intro d s hd hs; cases hd; cases hs; rfl)
  have hmax : ∀ k, n.maxItems = some k → k = 3 := by
    rcases hn with ⟨rfl, rfl⟩ | ⟨rfl, rfl⟩ <;> (intro k hk; cases hk; rfl)
  have hpart : ∀ (l' : List JVal) d (i : Nat) x s, JVal.arr l = .arr l' → n.items = some d → d.node = some s → prefixLength n ≤ i →
      l'[i]? = some x → Valid (patternMeaning kindEnv) root s x := by
    rintro l' d i x s ⟨⟩ hd hs _ hx
    rw [hitems d s hd hs]
    exact kind_leaf hsub (hi x (List.mem_of_getElem? hx))
  have hlen : ∀ (l' : List JVal) k, JVal.arr l = .arr l' → n.maxItems = some k → (l'.length : Int) ≤ k := by
    rintro l' k ⟨⟩ hk
    rw [hmax k hk]
    omega
  rcases hn with ⟨rfl, rfl⟩ | ⟨rfl, rfl⟩ <;>
  · refine .basic _ _ emptyNode emptyNode [] ⟨rfl, rfl, rfl, rfl, rfl, rfl, rfl, rfl, ?_, rfl, rfl, rfl, rfl⟩ ?_ nofun nofun nofun
      nofun nofun nofun nofun nofun nofun hpart nofun nofun
    · intro x hx; cases hx; rfl
    · refine ⟨?_, nofun, nofun, nofun, nofun, nofun, nofun, nofun, hlen, nofun, ?_, nofun, nofun, nofun, nofun⟩
      · rintro t ⟨⟩; exact HasType.array l
      · intro l' x _ hx; cases hx; nofun

theorem kind_short {n root : SchemaNode} {l : List JVal} (hn : n = kindFlags ∨ n = kindNulls) (hl : ¬ l.length ≤ 3) :
    Invalid (patternMeaning kindEnv) root n (.arr l) := by
  refine .alone fun h => hl ?_
  have : (l.length : Int) ≤ 3 := by
    rcases hn with rfl | rfl <;> exact h.maxItems l 3 rfl rfl
  omega

theorem kind_item {n sub root : SchemaNode} {l : List JVal} {x : JVal} (hn : n = kindFlags ∧ sub = mixedFlag ∨ n = kindNulls ∧ sub = mixedNull)
    (hx : x ∈ l) (ht : ¬ TypeOk sub x) : Invalid (patternMeaning kindEnv) root n (.arr l) := by
  obtain ⟨i, hi⟩ := List.getElem?_of_mem hx
  rcases hn with ⟨rfl, rfl⟩ | ⟨rfl, rfl⟩
  · exact .items (d := { node := some mixedFlag, nodes := some [] }) rfl rfl (Nat.zero_le _) hi (.alone fun h => ht h.type)
  · exact .items (d := { node := some mixedNull, nodes := some [] }) rfl rfl (Nat.zero_le _) hi (.alone fun h => ht h.type)

theorem kind_other {n root : SchemaNode} {v : JVal} (hn : n = kindFlags ∨ n = kindNulls) (hv : ∀ l, v ≠ .arr l) :
    Invalid (patternMeaning kindEnv) root n v := by
  refine .alone fun h => ?_
  have : HasType "array" v := by
    rcases hn with rfl | rfl <;> exact h.type _ rfl
  generalize ht : "array" = t at this
  cases this <;> first | exact hv _ rfl | exact absurd ht (by decide)

/-- The text of a list schema. -/
def kindText (t : String) : JVal :=
  .obj [("type", .str "array"), ("maxItems", .num 3), ("items", .obj [("type", .str t)])]

theorem kind_flags_text (scope : String) : replaceRefs scope (encodeNode kindFlags) = kindText "boolean" := by
  have : encodeNode kindFlags = kindText "boolean" := rfl
  rw [this]; rfl

theorem kind_nulls_text (scope : String) : replaceRefs scope (encodeNode kindNulls) = kindText "null" := by
  have : encodeNode kindNulls = kindText "null" := rfl
  rw [this]; rfl

theorem kind_flag_text (scope : String) : replaceRefs scope (encodeNode mixedFlag) = .obj [("type", .str "boolean")] := by
  have : encodeNode mixedFlag = .obj [("type", .str "boolean")] := rfl
  rw [this]; rfl

theorem judged_by {root x : SchemaNode} (h : ∀ scope v, (kindValidator (replaceRefs scope (encodeNode x)) v = true →
      Valid (patternMeaning kindEnv) root x v) ∧ (kindValidator (replaceRefs scope (encodeNode x)) v = false →
      Invalid (patternMeaning kindEnv) root x v)) : Judged kindEnv root x := by
  intro resources key scope accepts hl hc v
  have hf : kindValidator (replaceRefs scope (encodeNode x)) = accepts := by
    have : kindEnv.compile resources key = (lookupKV resources key).map kindValidator := rfl
    rw [this, hl] at hc
    exact Option.some.inj hc
  rw [← hf]
  exact h scope v

theorem kind_flag_judged (root : SchemaNode) : Judged kindEnv root mixedFlag := by
  refine judged_by fun scope v => ?_
  rw [kind_flag_text]
  cases v with
  | bool b => exact ⟨fun _ => kind_leaf (.inl rfl) (flag_type.2 ⟨b, rfl⟩), nofun⟩
  | _ => exact ⟨nofun, fun _ => .alone fun h => by obtain ⟨_, h⟩ := flag_type.1 h.type; cases h⟩

theorem kind_list_judged {n sub root : SchemaNode} {t : String} (hn : n = kindFlags ∧ sub = mixedFlag ∨ n = kindNulls ∧ sub = mixedNull)
    (htext : ∀ scope, replaceRefs scope (encodeNode n) = kindText t)
    (ht : ∀ x, kindTest [("type", .str t)] x = true ↔ TypeOk sub x) : Judged kindEnv root n := by
  have hn' : n = kindFlags ∨ n = kindNulls := hn.imp (·.1) (·.1)
  refine judged_by fun scope v => ?_
  rw [htext]
  cases v with
  | arr l =>
    have e : kindValidator (kindText t) (.arr l) = (decide ((l.length : Rat) ≤ 3) && l.all (kindTest [("type", .str t)])) := rfl
    rw [e]
    constructor
    · intro h
      rw [Bool.and_eq_true, decide_eq_true_eq, List.all_eq_true] at h
      exact kind_list hn (by exact_mod_cast h.1) fun x hx => (ht x).1 (h.2 x hx)
    · intro h
      rw [Bool.and_eq_false_iff] at h
      rcases h with h | h
      · refine kind_short hn' ?_
        have h := of_decide_eq_false h
        exact fun hl => h (by exact_mod_cast hl)
      · rw [List.all_eq_false] at h
        obtain ⟨x, hx, hxt⟩ := h
        exact kind_item hn hx fun h => hxt ((ht x).2 h)
  | _ => exact ⟨nofun, fun _ => kind_other hn' nofun⟩

theorem kind_test_flag (x : JVal) : kindTest [("type", .str "boolean")] x = true ↔ TypeOk mixedFlag x := by
  rw [flag_type]
  cases x with
  | bool b => exact ⟨fun _ => ⟨b, rfl⟩, fun _ => rfl⟩
  | _ => exact ⟨nofun, nofun⟩

theorem kind_test_null (x : JVal) : kindTest [("type", .str "null")] x = true ↔ TypeOk mixedNull x := by
  rw [null_type]
  cases x with
  | null => exact ⟨fun _ => rfl, fun _ => rfl⟩
  | _ => exact ⟨nofun, nofun⟩

theorem kind_judged {x : SchemaNode} (root : SchemaNode) (hx : x ∈ [mixedFlag, kindFlags, kindNulls]) : Judged kindEnv root x := by
  simp only [List.mem_cons, List.mem_nil_iff, or_false] at hx
  rcases hx with rfl | rfl | rfl
  · exact kind_flag_judged root
  · exact kind_list_judged (.inl ⟨rfl, rfl⟩) kind_flags_text kind_test_flag
  · exact kind_list_judged (.inr ⟨rfl, rfl⟩) kind_nulls_text kind_test_null

theorem kind_places {m : SchemaNode} {d : Nat} {ts : List String} (h : Inside kindRoot d ts m) : m = kindRoot ∧ d = 0 ∧ ts = [] := by
  induction h with
  | root => exact ⟨rfl, rfl, rfl⟩
  | named _ hn ih =>
    obtain ⟨rfl, rfl, rfl⟩ := ih
    cases hn with
    | _ p hp _ => cases hp
  | sub _ hn hkw ih =>
    obtain ⟨rfl, rfl, rfl⟩ := ih
    cases hn <;> first | (rename_i hp; cases hp) | (rename_i hp _ _; cases hp)
  | items _ hi _ _ ih => obtain ⟨rfl, rfl, rfl⟩ := ih; cases hi
  | prefixItems _ hi _ ih => obtain ⟨rfl, rfl, rfl⟩ := ih; cases hi

theorem kind_apart : NamesApart kindRoot := by
  have asked : ∀ {ts f x}, Asked kindRoot ts f x → (pointerText ts ++ "/" ++ f, x) ∈
      [("#/oneOf/0", mixedFlag), ("#/oneOf/1", kindFlags), ("#/oneOf/2", kindNulls)] := by
    intro ts f x h
    cases h with
    | alternative hi ho hx =>
      rename_i l i
      obtain ⟨rfl, rfl, rfl⟩ := kind_places hi
      cases ho
      match i with
      | 0 => cases hx; rw [show pointerText [] ++ "/" ++ s!"oneOf/{0}" = "#/oneOf/0" by decide +kernel]; simp
      | 1 => cases hx; rw [show pointerText [] ++ "/" ++ s!"oneOf/{1}" = "#/oneOf/1" by decide +kernel]; simp
      | 2 => cases hx; rw [show pointerText [] ++ "/" ++ s!"oneOf/{2}" = "#/oneOf/2" by decide +kernel]; simp
      | k + 3 => simp at hx
    | condition hi ho =>
      obtain ⟨rfl, rfl, rfl⟩ := kind_places hi
      cases ho
  intro ts f x ts' f' x' h h' he
  have h1 := asked h
  have h2 := asked h'
  generalize pointerText ts ++ "/" ++ f = a at *
  generalize pointerText ts' ++ "/" ++ f' = b at *
  simp only [List.mem_cons, List.mem_nil_iff, or_false, Prod.mk.injEq] at h1 h2
  rcases h1 with ⟨rfl, rfl⟩ | ⟨rfl, rfl⟩ | ⟨rfl, rfl⟩ <;> rcases h2 with ⟨rfl, rfl⟩ | ⟨rfl, rfl⟩ | ⟨rfl, rfl⟩ <;>
    first | rfl | (exfalso; revert he; decide +kernel)

theorem kind_kept {x : SchemaNode} (hx : x ∈ [mixedFlag, kindFlags, kindNulls]) : KeptByMerge x := by
  simp only [List.mem_cons, List.mem_nil_iff, or_false] at hx
  rcases hx with rfl | rfl | rfl
  · exact mixed_kept _ (by decide) nofun
  · exact mixed_kept _ (by decide) nofun
  · exact mixed_kept _ (by decide) nofun

theorem kind_list_places {n sub m : SchemaNode} {d : Nat} {ts : List String} (e1 : n.children = [sub]) (e2 : sub.children = [])
    (h : Inside n d ts m) : m = n ∧ d = 0 ∨ m = sub ∧ d = 1 := by
  refine Inside.places (P := fun d m => m = n ∧ d = 0 ∨ m = sub ∧ d = 1) (.inl ⟨rfl, rfl⟩) ?_ h
  rintro d n' m (⟨hn, rfl⟩ | ⟨hn, rfl⟩) hm
  · rw [hn, e1] at hm; exact .inr ⟨List.mem_singleton.1 hm, rfl⟩
  · rw [hn, e2] at hm; cases hm

theorem kind_flags_supported {o : Opts} (ho : o.defaultArrayMinItems ≤ 3) {root : SchemaNode} : Supported kindEnv o root kindFlags :=
  mixed_supported _ _ rfl (by decide) nofun nofun (no_objects rfl rfl rfl rfl rfl)
    ⟨by intro k hk; cases hk; exact ⟨by decide, fun _ => ho⟩, nofun, nofun, nofun, nofun, nofun⟩

theorem kind_nulls_supported {o : Opts} (ho : o.defaultArrayMinItems ≤ 3) {root : SchemaNode} : Supported kindEnv o root kindNulls :=
  mixed_supported _ _ rfl (by decide) nofun nofun (no_objects rfl rfl rfl rfl rfl)
    ⟨by intro k hk; cases hk; exact ⟨by decide, fun _ => ho⟩, nofun, nofun, nofun, nofun, nofun⟩

theorem kind_shallow {d : Nat} (h : d < 3) : (d : Int) < kindEnv.maxParseDepth := by
  show (d : Int) < 100
  omega

theorem kind_parts {o : Opts} (ho : o.defaultArrayMinItems ≤ 3) {x m : SchemaNode} (hx : x ∈ [mixedFlag, kindFlags, kindNulls])
    {e : Nat} {us : List String} (hm : Inside x e us m) : FreeOk kindEnv o kindRoot (0 + 1 + e) m := by
  have f1 : kindFlags.children = [mixedFlag] := rfl
  have f2 : kindNulls.children = [mixedNull] := rfl
  have f3 : mixedFlag.children = [] := rfl
  have f4 : mixedNull.children = [] := rfl
  have s1 : Supported kindEnv o kindRoot mixedFlag := mixed_leaf rfl (.inl rfl)
  have s2 : Supported kindEnv o kindRoot mixedNull := mixed_leaf rfl (.inr (.inl rfl))
  have s3 : Supported kindEnv o kindRoot kindFlags := kind_flags_supported ho
  have s4 : Supported kindEnv o kindRoot kindNulls := kind_nulls_supported ho
  simp only [List.mem_cons, List.mem_nil_iff, or_false] at hx
  rcases hx with hx | hx | hx <;> rw [hx] at hm
  · obtain ⟨hm, he⟩ := leaf_places f3 hm
    rw [hm, he]
    exact .plain s1 (kind_shallow (by decide))
  · rcases kind_list_places f1 f3 hm with ⟨hm, he⟩ | ⟨hm, he⟩ <;> rw [hm, he]
    · exact .plain s3 (kind_shallow (by decide))
    · exact .plain s1 (kind_shallow (by decide))
  · rcases kind_list_places f2 f4 hm with ⟨hm, he⟩ | ⟨hm, he⟩ <;> rw [hm, he]
    · exact .plain s4 (kind_shallow (by decide))
    · exact .plain s2 (kind_shallow (by decide))

theorem kind_ok {o : Opts} (ho : o.defaultArrayMinItems ≤ 3) {d : Nat} {ts : List String} {m : SchemaNode}
    (h : Inside kindRoot d ts m) : PlaceOk kindEnv o kindRoot d ts m := by
  have h100 : kindEnv.maxParseDepth = 100 := rfl
  obtain ⟨rfl, rfl, rfl⟩ := kind_places h
  refine .variants _ rfl rfl (by simp) (by rw [h100]; decide) kind_apart ?_ nofun nofun
  intro x hx
  refine ⟨kind_kept hx, ?_, ?_, kind_judged _ hx, fun e us m hm => kind_parts ho hx hm⟩ <;>
  · simp only [List.mem_cons, List.mem_nil_iff, or_false] at hx
    rcases hx with rfl | rfl | rfl <;> rfl

/-- A world in which the empty list is drawn first, and found to be valid for two alternatives. -/
def kindWorld : World := { noteWorld with seeded := fun i => if i = 0 then 1 else if i = 1 then 0 else 7 }

/-- The schema parses without errors, and the value is generated without a diagnostic. -/
def kindRun (value : JVal) : Bool :=
  match parseSchema kindEnv 30 kindSchema with
  | .done (.ok (g, none) s) => s.errors.length = 0 &&
    match rootGenerate kindWorld {} (refEnv s) 40 g with
    | .ok v st => st.diags.length = 0 && JVal.jeq v value
    | _ => false
  | _ => false

theorem kind_run {value : JVal} (h : kindRun value = true) :
    ∃ g s v st, parseSchema kindEnv 30 kindSchema = .done (.ok (g, none) s) ∧ s.errors = [] ∧
      rootGenerate kindWorld {} (refEnv s) 40 g = .ok v st ∧ st.diags = [] ∧ JVal.jeq v value = true := by
  unfold kindRun at h
  split at h
  · rename_i g s hparse
    rw [Bool.and_eq_true] at h
    obtain ⟨h1, h2⟩ := h
    split at h2
    · rename_i v st hgen
      rw [Bool.and_eq_true] at h2
      exact ⟨g, s, v, st, hparse, List.eq_nil_of_length_eq_zero (of_decide_eq_true h1), hgen,
        List.eq_nil_of_length_eq_zero (of_decide_eq_true h2.1), h2.2⟩
    · cases h2
  · cases h

/-- The hypotheses of C56 are met: another list takes the place of the rejected one, and it is valid. -/
example : ∃ v, JVal.jeq v (.arr [.bool true]) = true ∧ Valid (patternMeaning kindEnv) kindRoot kindRoot v := by
  obtain ⟨g, s, v, st, hparse, herr, hgen, hq, hv⟩ := kind_run (value := .arr [.bool true]) (by decide +kernel)
  exact ⟨v, hv, C56_generated_values_are_valid_partial kindEnv 30 40 kindSchema kindRoot kind_decodes kindWorld {} rfl rfl
    (fun d ts m hm => kind_ok (by decide) hm) g s hparse herr v st hgen hq⟩

/-- A value without objects. -/
inductive NoObject : JVal → Prop
  | null : NoObject .null
  | bool (b : Bool) : NoObject (.bool b)
  | arr (l : List JVal) : (∀ x ∈ l, NoObject x) → NoObject (.arr l)

theorem NoObject.same {a b : JVal} (h : SameJson a b) : (NoObject a → a = b) ∧ (NoObject b → a = b) := by
  induction h with
  | refl => exact ⟨fun _ => rfl, fun _ => rfl⟩
  | symm _ ih => exact ⟨fun h => (ih.2 h).symm, fun h => (ih.1 h).symm⟩
  | trans _ _ ih1 ih2 =>
    constructor
    · intro h
      have e := ih1.1 h
      subst e
      exact ih2.1 h
    · intro h
      have e := ih2.2 h
      subst e
      exact ih1.2 h
  | order => exact ⟨nofun, nofun⟩
  | member => exact ⟨nofun, nofun⟩
  | item l r _ ih =>
    constructor
    · intro h
      cases h with
      | arr _ h => rw [ih.1 (h _ (by simp))]
    · intro h
      cases h with
      | arr _ h => rw [ih.2 (h _ (by simp))]

/-- The hypotheses of C75 are met as well: every non-empty list of less than three flags comes out. -/
example (l : List Bool) (h1 : 1 ≤ l.length) (h3 : l.length < 3) :
    ∃ g s, parseSchema kindEnv 30 kindSchema = .done (.ok (g, none) s) ∧
    ∃ (seeded ambient : Nat → Nat) (gfuel : Nat) (v' : JVal) (st : GSt),
      rootGenerate { noteWorld with seeded := seeded, ambient := ambient } {} (refEnv s) gfuel g = .ok v' st ∧
      SameJson (.arr (l.map .bool)) v' ∧ st.diags = [] := by
  obtain ⟨g, s, _, _, hparse, herr, -⟩ := kind_run (value := .arr [.bool true]) (by decide +kernel)
  refine ⟨g, s, hparse, ?_⟩
  have b1 : (100 : Int) ≤ (withGeneratorOptionsDefaults {}).maximumGenerationSteps := by decide
  have b2 : (100 : Int) ≤ (withGeneratorOptionsDefaults {}).cutoffGenerationSteps := by decide
  have hs : (JVal.arr (l.map .bool)).steps ≤ 4 := by
    match l, h3 with
    | [], _ => decide
    | [a], _ => show 2 ≤ 4; decide
    | [a, b], _ => show 3 ≤ 4; decide
  refine C75_attainable_values_are_generated_partial kindEnv 30 kindSchema kindRoot kind_decodes noteWorld {} rfl
    (fun d ts m hm => kind_ok (by decide) hm) g s hparse herr 3 _ ?_ (.inr (by omega)) (.inr (by omega))
  have hk : KeptByMerge kindFlags := kind_kept (by simp)
  refine .oneOf kindRoot _ 1 kindFlags _ rfl rfl rfl hk (by decide) ?_ ?_
  · intro v' hv'
    have e := (NoObject.same hv').1 (.arr _ (by intro x hx; obtain ⟨b, _, rfl⟩ := List.mem_map.1 hx; exact .bool b))
    subst e
    refine ⟨kind_list (.inl ⟨rfl, rfl⟩) (by rw [List.length_map]; omega) ?_, ?_⟩
    · intro x hx
      obtain ⟨b, _, rfl⟩ := List.mem_map.1 hx
      exact flag_type.2 ⟨b, rfl⟩
    · intro j y hy hj
      match j, hy with
      | 0, hy =>
        cases hy
        exact .alone fun h => by obtain ⟨_, h⟩ := flag_type.1 h.type; cases h
      | 1, _ => exact absurd rfl hj
      | 2, hy =>
        cases hy
        obtain ⟨b, t, rfl⟩ : ∃ b t, l = b :: t := by
          match l, h1 with
          | b :: t, _ => exact ⟨b, t, rfl⟩
        exact kind_item (.inr ⟨rfl, rfl⟩) (x := .bool b) (by simp) fun h => by have := null_type.1 h; cases this
  · refine Attainable.asMerged hk ?_
    refine .array kindFlags _ ⟨⟨rfl, rfl, rfl, rfl, rfl, rfl⟩, rfl, rfl, _, rfl, .inl ⟨rfl, rfl⟩⟩ rfl rfl
      (fun _ => ?_) nofun (fun _ _ _ _ => ⟨_, _, rfl, rfl⟩) nofun nofun ?_
    · rw [List.length_map]
      have : l.length = 1 ∨ l.length = 2 := by omega
      rcases this with h | h <;> rw [h] <;> exact ⟨by decide, by decide, by decide⟩
    · intro d i x sub hd hn _ hx
      cases hd
      cases hn
      obtain ⟨b, _, rfl⟩ := List.mem_map.1 (List.mem_of_getElem? hx)
      exact .boolean mixedFlag b ⟨⟨rfl, rfl, rfl, rfl, rfl, rfl⟩, rfl, rfl, _, rfl, .inl ⟨rfl, rfl⟩⟩

end Chaff
