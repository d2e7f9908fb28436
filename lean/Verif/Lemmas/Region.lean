import Verif.Lemmas.Follow
import Verif.Lemmas.Gather
import Verif.Lemmas.Exclude
import Verif.Lemmas.Free
/-!
# The places that the parser visits

The parser visits the places of the document and, below a combined schema, the merged schemas.  The latter are
registered under paths that contain `allOf`, `anyOf`, `oneOf`, `then` or `else`, which no reference denotes.
-/

namespace Chaff
open Comp

/-- Keywords that are followed by a name or an index. -/
def kwNamed : List String := ["properties", "patternProperties", "definitions", "$defs", "prefixItems"]

/-- Keywords that hold one schema. -/
def kwSingle : List String :=
  ["not", "contains", "additionalProperties", "additionalItems", "unevaluatedItems", "items"]

/-- Tokens of a place: keywords, each with its name. -/
inductive Steps : List String → Prop
  | nil : Steps []
  | named {kw name : String} {ts : List String} : kw ∈ kwNamed → Steps ts → Steps (kw :: name :: ts)
  | single {kw : String} {ts : List String} : kw ∈ kwSingle → Steps ts → Steps (kw :: ts)

theorem Steps.append {ts us : List String} (h : Steps ts) (h' : Steps us) : Steps (ts ++ us) := by
  induction h with
  | nil => exact h'
  | named hk _ ih => exact .named hk ih
  | single hk _ ih => exact .single hk ih

theorem Inside.steps {root n : SchemaNode} {d : Nat} {ts : List String} (h : Inside root d ts n) : Steps ts := by
  induction h with
  | root => exact .nil
  | named _ hn ih => exact ih.append (.named (by cases hn <;> decide) .nil)
  | sub _ hn hk ih => exact ih.append (.single (by revert hk; cases hn <;> decide) .nil)
  | items _ _ _ _ ih => exact ih.append (.single (by decide) .nil)
  | prefixItems _ _ _ ih => exact ih.append (.named (by decide) .nil)

theorem Steps.rest {ts us : List String} (h : Steps ts) (h' : Steps (ts ++ us)) : Steps us := by
  have key : ∀ a ∈ kwNamed, a ∉ kwSingle := by decide
  induction h with
  | nil => exact h'
  | named hk _ ih =>
    cases h' with
    | named _ h' => exact ih h'
    | single hk' _ => exact (key _ hk hk').elim
  | single hk _ ih =>
    rename_i kw vs _
    have : ∀ x, Steps x → x = kw :: (vs ++ us) → Steps us := by
      intro x hx
      cases hx with
      | nil => nofun
      | named hk' _ =>
        intro h
        rw [(List.cons.inj h).1] at hk'
        exact (key _ hk' hk).elim
      | single _ hx =>
        intro h
        rw [(List.cons.inj h).2] at hx
        exact ih hx
    exact this _ h' rfl

section
variable {c : PEnv} {o : Opts} {root : SchemaNode}

theorem Off.not_inside {ts : List String} (h : Off root ts) {d : Nat} {n : SchemaNode} : ¬ Inside root d ts n := by
  obtain ⟨kw, us, hin, hk⟩ := h
  intro h
  have := hin.steps.rest h.steps
  cases this with
  | named hk' _ => exact (show ∀ a ∈ kwNamed, a ∉ ["allOf", "anyOf", "oneOf", "then", "else"] by decide) kw hk' hk
  | single hk' _ => exact (show ∀ a ∈ kwSingle, a ∉ ["allOf", "anyOf", "oneOf", "then", "else"] by decide) kw hk' hk

/-- A place off the document, or one of the document at some depth.  What is below an exclusion is parsed one level deeper
than it stands. -/
def Loose (root : SchemaNode) (ts : List String) (n : SchemaNode) : Prop := Off root ts ∨ ∃ d, Inside root d ts n

theorem Loose.off {ts : List String} {n : SchemaNode} (h : Loose root ts n) {kw : String}
    (hk : kw ∈ ["allOf", "anyOf", "oneOf", "then", "else"]) (us : List String) : Off root (ts ++ kw :: us) := by
  rcases h with h | ⟨d, h⟩
  · exact h.append _
  · exact .intro kw us h hk

/-- A part of an alternative of any type. -/
def FreePart (c : PEnv) (o : Opts) (root : SchemaNode) (d : Nat) (n : SchemaNode) : Prop :=
  ∃ e0 x us e, d = e0 + e ∧ Inside x e us n ∧ ∀ e us m, Inside x e us m → FreeOk c o root (e0 + e) m

theorem FreePart.ok {d : Nat} {n : SchemaNode} (h : FreePart c o root d n) : FreeOk c o root d n := by
  obtain ⟨e0, x, us, e, rfl, h1, h2⟩ := h
  exact h2 e us n h1

/-- The places of the document, the merged schemas below combined ones and the alternatives of any type. -/
def Visited (c : PEnv) (o : Opts) (root : SchemaNode) : Places := fun d ts n =>
  Inside root d ts n ∨ (Loose root ts n ∧ ∃ ty b path, Combines c o ty (Concurs c o ty b path) b path n ∧ n.defs = none ∧ n.definitions = none ∧
    (d : Int) + combinedDepth b n ≤ c.maxParseDepth) ∨ (Off root ts ∧ FreePart c o root d n)

variable {A : SchemaNode → Prop}

theorem Concurs.pos {ty : ValuePath → Kind} {b : Nat} {path : ValuePath} {n : SchemaNode} (h : Concurs c o ty b path n) :
    ∃ b', b = b' + 1 := by
  cases h; exact ⟨_, rfl⟩

theorem Combines.pos {ty : ValuePath → Kind} {b : Nat} {path : ValuePath} {n : SchemaNode} (h : Combines c o ty A b path n) :
    ∃ b', b = b' + 1 := h.own.pos

/-- The values that a combined schema lists are valid against it. -/
theorem Combines.listed {ty : ValuePath → Kind} {b : Nat} {path : ValuePath} {n : SchemaNode}
    (h : Combines c o ty A b path n) (h1 : n.allOf = none) (h2 : n.anyOf = none) (x : JVal) (hx : Lists n x) :
    Valid (patternMeaning c) root n x := by
  have hm := h.mergeable
  have hcov := hm.covered
  have hl : (ty path).listed = true := by
    cases hc : (ty path).listed with
    | true => rfl
    | false =>
      obtain ⟨a, b⟩ := hm.unlisted hc
      rcases hx with ⟨l, hl, _⟩ | hl
      · exact absurd (hl.symm.trans a) nofun
      · exact absurd (hl.symm.trans b) nofun
  have ho := hm.listed hl
  obtain ⟨hw, ht⟩ := hm.listedValues x hx
  have q1 : n.minimum = none := ho.minimum
  have q2 : n.maximum = none := ho.maximum
  have q3 : n.exclusiveMinimum = none := ho.exclusiveMinimum
  have q4 : n.exclusiveMaximum = none := ho.exclusiveMaximum
  have q5 : n.minLength = none := ho.minLength
  have q6 : n.maxLength = none := ho.maxLength
  have q7 : n.pattern = none := ho.pattern
  have q8 : n.items = none := ho.items
  have q9 : n.minItems = none := ho.minItems
  have q10 : n.maxItems = none := ho.maxItems
  have q11 : n.uniqueItems = none := ho.uniqueItems
  have q12 : n.properties = none := ho.properties
  have q13 : n.required = none := ho.required
  have q14 : n.minProperties = none := ho.minProperties
  have q15 : n.maxProperties = none := ho.maxProperties
  have q16 : n.additionalProperties = none := hm.additionalProperties
  have q17 : n.contains = none := hm.contains
  have q18 : n.prefixItems = none := hm.prefixItems
  have q19 : n.multipleOf = none := hm.multipleOf
  have q20 : n.patternProperties = none := hm.patternProperties
  have q21 : n.ref = none := hm.ref
  refine .basic n x emptyNode emptyNode []
    ⟨hcov.1, hcov.2, hcov.3, hcov.4, hcov.5, hcov.6, hcov.7, hcov.8, hcov.9, hcov.10, hcov.11, hcov.12, hcov.13⟩
    ?_ (by rw [q21]; nofun) (by rw [q21]; nofun) (by rw [h1]; nofun) (by rw [h2]; nofun) (by rw [h2]; nofun)
    (by rw [q12]; nofun) (by rw [q20]; nofun) (by rw [q16]; nofun) (by rw [q18]; nofun) (by rw [q8]; nofun)
    (by rw [q17]; nofun) (by rw [q17]; nofun)
  exact
    { type := fun t h => by
        rw [hm.type t h]
        exact ht
      enum := fun l hl => by
        rcases hx with ⟨l', hl', hx⟩ | hc
        · obtain rfl : l' = l := Option.some.inj (hl'.symm.trans hl)
          exact ⟨x, hx, SameJson.refl x⟩
        · rcases hm.oneList with e | e
          · exact absurd (hl.symm.trans e) nofun
          · exact absurd (hc.symm.trans e) nofun
      const := fun y hy => by
        rcases hx with ⟨l', hl', hx⟩ | hc
        · rcases hm.oneList with e | e
          · exact absurd (hl'.symm.trans e) nofun
          · exact absurd (hy.symm.trans e) nofun
        · obtain rfl : x = y := Option.some.inj (hc.symm.trans hy)
          exact SameJson.refl x
      number := fun q _ => by
        unfold numKeywords
        rw [q1, q2, q3, q4, q19]
        constructor <;> nofun
      minLength := by rw [q5]; nofun
      maxLength := by rw [q6]; nofun
      pattern := by rw [q7]; nofun
      minItems := by rw [q9]; nofun
      maxItems := by rw [q10]; nofun
      uniqueItems := by rw [q11]; nofun
      itemsFalse := by rw [q8]; nofun
      minProperties := by rw [q14]; nofun
      maxProperties := by rw [q15]; nofun
      required := by rw [q13]; nofun
      additionalFalse := by rw [q16]; nofun }

/-- A combined schema without `allOf` and `anyOf` is a supported one. -/
theorem Combines.supported {ty : ValuePath → Kind} {b : Nat} {path : ValuePath} {n : SchemaNode}
    (h : Combines c o ty A b path n) (h1 : n.allOf = none) (h2 : n.anyOf = none)
    (hd : ∀ p, n.definitions = some p → (keysKV p).Nodup ∧ ∀ k ∈ keysKV p, PlainName k)
    (hd' : ∀ p, n.defs = some p → (keysKV p).Nodup ∧ ∀ k ∈ keysKV p, PlainName k) : Supported c o root n := by
  have hm := h.mergeable
  have hcov := hm.covered
  have e1 : n.ref = none := hm.ref
  have e4 : n.additionalProperties = none := hm.additionalProperties
  have e5 : n.contains = none := hm.contains
  have e6 : n.minContains = none := hm.minContains
  have e7 : n.prefixItems = none := hm.prefixItems
  have e8 : n.multipleOf = none := hm.multipleOf
  exact
    { covered := ⟨hcov.1, hcov.2, hcov.3, hcov.4, hcov.5, hcov.6, hcov.7, hcov.8, hcov.9, hcov.10, hcov.11, hcov.12, hcov.13⟩
      allOf := h1
      anyOf := h2
      ref := by rw [e1]; nofun
      definitions := hd
      defs := hd'
      enum := fun l hl => ⟨hm.someValue l hl, fun x hx =>
        ⟨(hm.listedValues x (.inl ⟨l, hl, hx⟩)).1, h.listed h1 h2 x (.inl ⟨l, hl, hx⟩)⟩⟩
      const := fun x hx _ => ⟨(hm.listedValues x (.inr hx)).1, h.listed h1 h2 x (.inr hx)⟩
      types := by
        refine ⟨fun t ht _ => ?_, fun t l ht hl => ?_⟩
        · rw [hm.type t ht]; exact hm.known
        · rw [hm.type t ht] at hl; cases hl
      object :=
        { patterns := by rw [show n.patternProperties = none from hm.patternProperties]; nofun
          names := hm.names
          requiredNames := hm.requiredNames
          requiredDeclared := by rw [e4]; nofun
          maximum := hm.maxProperties
          closedMinimum := by rw [e4]; nofun }
      array :=
        { maximum := hm.maxItems
          closedMinimum := fun x _ hx hd => by rw [hm.items x hx] at hd; cases hd
          minimum := hm.minItems
          containsAlone := fun hc => absurd e5 hc
          minContains := by rw [e6]; nofun
          unique := fun _ => by rw [e7]; rfl }
      string := ⟨hm.string.1, hm.string.2⟩
      number :=
        { arithmetic := hm.arithmetic
          magnitude := hm.magnitude
          exact := by rw [e8]; nofun
          doubles := fun hb ht => by
            rcases hm.doubles hb with hi | hi
            · exact absurd hi ht
            · exact .inl ⟨e8, hi⟩ } }

theorem Combines.covered {ty : ValuePath → Kind} {b : Nat} {path : ValuePath} {n : SchemaNode}
    (h : Combines c o ty A b path n) : Covered n := by
  have hcov := h.mergeable.covered
  exact ⟨hcov.1, hcov.2, hcov.3, hcov.4, hcov.5, hcov.6, hcov.7, hcov.8, hcov.9, hcov.10, hcov.11, hcov.12, hcov.13⟩

theorem combines_shallow {ty : ValuePath → Kind} {b d : Nat} {path : ValuePath} {n : SchemaNode}
    (h : Combines c o ty A b path n) (hd : (d : Int) + combinedDepth b n ≤ c.maxParseDepth) : (d : Int) < c.maxParseDepth := by
  obtain ⟨b', rfl⟩ := h.pos
  unfold combinedDepth at hd
  push_cast at hd
  split at hd <;> split at hd <;> omega

/-- A combination without `allOf`. -/
theorem Combination.combines {ty : ValuePath → Kind} {b : Nat} {ts : List String} {n : SchemaNode}
    (h : Combination c o root ty b ts n) (h1 : n.allOf = none) : Combines c o ty (Member c o root ty b ts) b [] n := by
  refine ⟨?_, h.someAlternative, fun l x hl hx => ?_⟩
  · have ho := h.own
    have : ({ n with allOf := none, anyOf := none, defs := none, definitions := none } : SchemaNode) =
        { n with anyOf := none, defs := none, definitions := none } := by
      cases n; simp_all
    rwa [this] at ho
  · rcases h.anyOf l x hl hx with h | h
    · exact .own h
    · exact h.2

/-- A combination with `allOf`, without it. -/
theorem Combination.rest {ty : ValuePath → Kind} {b : Nat} {ts : List String} {n : SchemaNode}
    (h : Combination c o root ty b ts n) (h1 : n.allOf ≠ none) :
    Combines c o ty (Concurs c o ty b []) b [] { n with allOf := none } :=
  ⟨h.own, h.someAlternative, fun l x hl hx => (h.anyOf l x hl hx).resolve_right fun h' => h1 h'.1⟩

theorem Combination.covered {ty : ValuePath → Kind} {b : Nat} {ts : List String} {n : SchemaNode}
    (h : Combination c o root ty b ts n) : Covered n := by
  have hcov := h.own.mergeable.covered
  exact ⟨hcov.1, hcov.2, hcov.3, hcov.4, hcov.5, hcov.6, hcov.7, hcov.8, hcov.9, hcov.10, hcov.11, hcov.12, hcov.13⟩

theorem shallow_of {b d : Nat} {n : SchemaNode} (hb : ∃ b', b = b' + 1) (hd : (d : Int) + combinedDepth b n ≤ c.maxParseDepth) :
    (d : Int) < c.maxParseDepth := by
  obtain ⟨b', rfl⟩ := hb
  unfold combinedDepth at hd
  push_cast at hd
  split at hd <;> split at hd <;> omega

/-- Below a combined schema. -/
theorem off_below {ty : ValuePath → Kind} {b d : Nat} {path : ValuePath} {n m : SchemaNode} {ts us : List String}
    (hoff : Loose root (ts ++ us) m) (hd : (d : Int) + combinedDepth (b + 1) n ≤ c.maxParseDepth) (h : Concurs c o ty b path m) :
    Visited c o root (d + 1) (ts ++ us) m := by
  refine .inr (.inl ⟨hoff, ty, b, path, h.combines, h.mergeable.defs, h.mergeable.definitions, ?_⟩)
  have ha := h.mergeable.anyOf
  unfold combinedDepth at hd ⊢
  rw [ha]
  simp only [Option.isSome_none, Bool.false_eq_true, if_false]
  have h1 : (if m.allOf.isSome = true then 1 else 0) ≤ 1 := by split <;> omega
  push_cast at hd ⊢
  split at hd <;> split at hd <;> split <;> omega

theorem Supported.undivided (h : Supported c o root n) : Undivided n := ⟨h.allOf, h.anyOf, h.covered.oneOf, h.covered.ifN, h.covered.not⟩

/-- The places visited when every place of the document is supported, combined, a choice or a condition. -/
theorem visited_region (hall : ∀ d ts m, Inside root d ts m → PlaceOk c o root d ts m) : Region c o root (Visited c o root) where
  own := by
    rintro d ts n (h | ⟨_, ty, b, path, h, _⟩ | ⟨_, h⟩)
    rotate_left 2
    · exact ⟨h.ok.covered.constraints, h.ok.covered.id⟩
    · cases hall d ts n h with
      | plain hs _ => exact ⟨hs.covered.constraints, hs.covered.id⟩
      | combined ty b h _ _ _ => exact ⟨h.covered.constraints, h.covered.id⟩
      | choice ty b h _ _ _ => exact ⟨h.own.mergeable.covered.constraints, h.own.mergeable.covered.id⟩
      | condition ty b h _ => exact ⟨h.own.mergeable.covered.constraints, h.own.mergeable.covered.id⟩
      | exclusion ty b h _ _ _ => exact ⟨h.own.mergeable.covered.constraints, h.own.mergeable.covered.id⟩
      | union _ h _ _ _ _ _ _ => exact ⟨h.covered.constraints, h.covered.id⟩
      | variants _ h _ _ _ _ _ _ _ => exact ⟨h.constraints, h.id⟩
    · exact ⟨h.covered.constraints, h.covered.id⟩
  shallow := by
    rintro d ts n (h | ⟨_, ty, b, path, h, _, _, hd⟩ | ⟨_, h⟩)
    rotate_left 2
    · exact h.ok.shallow
    · cases hall d ts n h with
      | plain _ hd => exact hd
      | combined ty b h hd _ _ => exact shallow_of h.own.pos hd
      | choice ty b h hd _ _ => omega
      | condition ty b h hd => omega
      | exclusion ty b h hd _ _ => omega
      | union _ _ _ _ h _ _ _ => exact h
      | variants _ _ _ _ h _ _ _ _ => exact h
    · exact combines_shallow h hd
  supported := by
    have hfree : ∀ {d : Nat} {n : SchemaNode}, FreeOk c o root d n → Undivided n → Supported c o root n := by
      intro d n h hu
      cases h with
      | plain h _ => exact h
      | alternatives _ h => rw [hu.anyOf] at h; cases h
    rintro d ts n (h | ⟨_, ty, b, path, h, hd1, hd2, hd⟩ | ⟨_, h⟩) hu
    rotate_left 2
    · exact hfree h.ok hu
    · cases hall d ts n h with
      | plain hs _ => exact hs
      | combined ty b h hd h3 h4 => exact (h.combines hu.allOf).supported hu.allOf hu.anyOf h3 h4
      | choice ty b h _ _ _ => exact (h.has hu.oneOf).elim
      | condition ty b h _ => exact (h.has hu.ifN).elim
      | exclusion ty b h _ _ _ => exact (h.has hu.not).elim
      | union _ _ h _ _ _ _ _ => exact absurd (h.symm.trans hu.anyOf) nofun
      | variants _ _ h _ _ _ _ _ _ => exact absurd (h.symm.trans hu.oneOf) nofun
    · exact h.supported hu.allOf hu.anyOf (by rw [hd2]; nofun) (by rw [hd1]; nofun)
  conditional := by
    rintro d ts n (h | ⟨_, ty, b, path, h, hd1, hd2, hd⟩ | ⟨_, h⟩) hif
    rotate_left 2
    · exact (hif h.ok.covered.ifN).elim
    · cases hall d ts n h with
      | plain hs _ => exact (hif hs.covered.ifN).elim
      | combined ty b h hd h3 h4 => exact (hif h.covered.ifN).elim
      | choice ty b h _ _ _ => exact (hif h.own.mergeable.covered.ifN).elim
      | exclusion ty b h _ _ _ => exact (hif h.own.mergeable.covered.ifN).elim
      | union _ h _ _ _ _ _ _ => exact (hif h.covered.ifN).elim
      | variants _ h _ _ _ _ _ _ _ => exact (hif h.ifN).elim
      | condition ty b h _ =>
        exact (h.own.combines (A := fun _ => True)).supported h.allOf h.own.mergeable.anyOf
          (by rw [h.own.mergeable.definitions]; nofun) (by rw [h.own.mergeable.defs]; nofun)
    · exact (hif h.covered.ifN).elim
  parts := by
    rintro d ts n (h | ⟨hoff, ty, b, path, h, hd1, hd2, hd⟩ | ⟨hoff, e0, x, us, e, rfl, h, hall'⟩)
    rotate_left 2
    · exact
        { properties := fun {p k m} hp hl => .inr (.inr ⟨hoff.append _, e0, x, _, e + 1, rfl, .named h (.properties p hp hl), hall'⟩)
          patternProperties := fun {p k m} hp hl =>
            .inr (.inr ⟨hoff.append _, e0, x, _, e + 1, rfl, .named h (.patternProperties p hp hl), hall'⟩)
          additionalProperties := fun {y m} hy hf hm =>
            .inr (.inr ⟨hoff.append _, e0, x, _, e + 1, rfl, .sub h (.additionalProperties y hy hf hm) (by decide), hall'⟩)
          items := fun {y m} hy hf hm => .inr (.inr ⟨hoff.append _, e0, x, _, e + 1, rfl, .items h hy hf hm, hall'⟩)
          prefixItems := fun {l m i} hy hm => .inr (.inr ⟨hoff.append _, e0, x, _, e + 1, rfl, .prefixItems h hy hm, hall'⟩)
          contains := fun {m} hy => .inr (.inr ⟨hoff.append _, e0, x, _, e + 1, rfl, .sub h (.contains hy) (by decide), hall'⟩) }
    · exact
        { properties := fun {p k m} hp hl => .inl (.named h (.properties p hp hl))
          patternProperties := fun {p k m} hp hl => .inl (.named h (.patternProperties p hp hl))
          additionalProperties := fun {x m} hx hf hm => .inl (.sub h (.additionalProperties x hx hf hm) (by decide))
          items := fun {x m} hx hf hm => .inl (.items h hx hf hm)
          prefixItems := fun {l m i} hx hm => .inl (.prefixItems h hx hm)
          contains := fun {m} hx => .inl (.sub h (.contains hx) (by decide)) }
    · obtain ⟨b', rfl⟩ := h.pos
      have ho := h.own
      generalize hb : ({ n with anyOf := none, defs := none, definitions := none } : SchemaNode) = x at ho
      obtain ⟨_, _, _, hpr, hit⟩ := ho
      subst hb
      have e1 : n.patternProperties = none := h.mergeable.patternProperties
      have e2 : n.additionalProperties = none := h.mergeable.additionalProperties
      have e3 : n.prefixItems = none := h.mergeable.prefixItems
      have e4 : n.contains = none := h.mergeable.contains
      exact
        { properties := fun {p k m} hp hl => off_below (hoff.elim (fun h => .inl (h.append _)) fun ⟨e, h⟩ => .inr ⟨e + 1, .named h (.properties p hp hl)⟩) hd
            (hpr p k m hp (lookupKV_mem hl))
          patternProperties := fun {p k m} hp hl => by rw [e1] at hp; cases hp
          additionalProperties := fun {x m} hx hf hm => by rw [e2] at hx; cases hx
          items := fun {x m} hx hf hm => off_below (hoff.elim (fun h => .inl (h.append _)) fun ⟨e, h⟩ => .inr ⟨e + 1, .items h hx hf hm⟩) hd (hit x m hx hm)
          prefixItems := fun {l m i} hx hm => by rw [e3] at hx; cases hx
          contains := fun {m} hx => by rw [e4] at hx; cases hx }
  refers := by
    rintro d ts n t (h | ⟨hoff | ⟨e, h⟩, _⟩ | ⟨hoff, _⟩) hpt ⟨d', us, hpu, he, hin⟩
    · exact ⟨d, ts, hpt, rfl, h⟩
    rotate_left
    · exact ⟨e, ts, hpt, rfl, h⟩
    all_goals
      rw [← pointerText_inj hpt hpu he] at hin
      exact (hoff.not_inside hin).elim

/-! ## The parser on combined schemas -/

variable {pid : String} {r : PRec} {C : SchemaNode → Gen → Prop} {ts : List String} {ty : ValuePath → Kind} {b d : Nat}
  {path : ValuePath} {n : SchemaNode}

theorem goes_merge {R : Places} {k e : Nat} {l : List SchemaNode} {z : SchemaNode}
    (hl : ∀ x ∈ l, Concurs c o ty b path x) (hz : Combines c o ty A b path z) :
    Goes c root R pid e ts (mergeNodes c k (l ++ [z]))
      (fun m => Merged c o root ty A b path l z m ∧ ((e : Int) + 1 ≤ c.maxParseDepth → m.allOf = none)) := by
  intro s a s' hg h he
  obtain ⟨rfl, h1, h2⟩ := merge_concur (root := root) k A b path l z s a s' hl hz h he
  refine ⟨hg, h1, fun hd => h2 ?_⟩
  have := hg.depth
  omega

/-- A value that is valid without `anyOf` and for one of the alternatives. -/
theorem valid_anyOf {pat : String → String → Prop} {n x : SchemaNode} {v : JVal} {l : List SchemaNode}
    (h : Valid pat root { n with anyOf := none } v) (hl : n.anyOf = some l) (hx : x ∈ l) (hv : Valid pat root x v) :
    Valid pat root n v := by
  obtain ⟨_, _, target, alternative, found, hc, hl, h1, h2, h3, h4, h5, h6, h7, h8, h9, h10, h11, h12, chosen, o1, o2, o3, holds, i1, i2, i3, i4, ng⟩ := h
  rename_i hl'
  refine .intro n v target x found ⟨hc.1, hc.2, hc.3, hc.4, hc.5, hc.6, hc.7, hc.8, hc.9, hc.10, hc.11, hc.12, hc.13⟩
    ⟨hl.1, hl.2, hl.3, fun q hq => ⟨(hl.4 q hq).1, (hl.4 q hq).2, (hl.4 q hq).3, (hl.4 q hq).4, (hl.4 q hq).5⟩, hl.5, hl.6, hl.7,
      hl.8, hl.9, hl.10, hl.11, hl.12, hl.13, hl.14, hl.15⟩ h1 h2 h3 ?_ ?_ h6 h7 h8 h9 h10 h11 h12
    chosen o1 o2 o3 holds i1 i2 i3 i4 ng
  · intro l' hl''
    rw [hl'] at hl''
    cases hl''
    exact hx
  · intro _ _
    exact hv

theorem Member.concurs {x : SchemaNode} (h : Member c o root ty b ts x) (href : x.ref = none) : Concurs c o ty b [] x := by
  cases h with
  | own h => exact h
  | refer us t => cases href

theorem own_allOf {l : List SchemaNode} (h : ∀ x ∈ l, x.ref = none ∧ x.allOf = none) :
    ∀ x ∈ l ++ [{ n with allOf := none }], x.allOf = none := by
  intro x hx
  rcases List.mem_append.1 hx with hx | hx
  · exact (h x hx).2
  · rw [List.mem_singleton.1 hx]

theorem Goes.also {R : Places} {e : Nat} {α : Type} {comp : P α} {Q Q' : α → Prop} (h : Goes c root R pid e ts comp Q)
    (h' : ∀ s a s', comp s = .ok a s' → s'.errors = [] → Q' a) : Goes c root R pid e ts comp (fun a => Q a ∧ Q' a) := by
  intro s a s' hg hrun he
  exact ⟨(h s a s' hg hrun he).1, (h s a s' hg hrun he).2, h' s a s' hrun he⟩

theorem goes_allOf (hr : KeepsRec c r) (hnode : NodeGoes c root (Visited c o root) pid C r) (hts : PlainTokens ts)
    (hoff : Off root (ts ++ ["allOf"])) (hb : ∃ b', b = b' + 1) (href : n.ref = none)
    (hd : (d : Int) + combinedDepth b n ≤ c.maxParseDepth) {l : List SchemaNode} (hl : n.allOf = some l)
    (hrefs : ∀ x ∈ l, x.ref = none ∨ ∃ us, x.ref = some (pointerText us))
    (hmerge : ∀ k, Goes c root (Visited c o root) pid (d + 1) ts (mergeNodes c k (l ++ [{ n with allOf := none }]))
      (fun m => Merged c o root ty (Concurs c o ty b path) b path l { n with allOf := none } m ∧
        (((d + 1 : Nat) : Int) + 1 ≤ c.maxParseDepth → m.allOf = none)))
    (hgather : ∀ k s m s', mergeNodes c k (l ++ [{ n with allOf := none }]) s = .ok m s' → s'.errors = [] → n.anyOf = none →
      (∀ x ∈ l, x.ref = none ∧ x.allOf = none) → Gathers (l ++ [{ n with allOf := none }]) m) :
    Goes c root (Visited c o root) pid (d + 1) ts (parseAllOf c r n l)
      (fun p => p.2 = none → CNode c root (Visited c o root) pid C n p.1) := by
  unfold parseAllOf
  dsimp only
  refine Goes.bind ?_ ((hmerge _).also (hgather _)) ?_
  · intro m
    refine Keeps.bind (keeps_parseInScope hr _ _ _) fun _ => ?_
    split
    · exact keeps_nullErr _
    · exact keeps_okGen _
  rintro m ⟨⟨hm, hnone⟩, hgat⟩
  have hdepth : (d : Int) + 2 * b + 1 + (if n.anyOf.isSome then 1 else 0) ≤ c.maxParseDepth := by
    unfold combinedDepth at hd
    rw [hl] at hd
    simp only [Option.isSome_some, if_true] at hd
    push_cast at hd
    split <;> simp_all <;> omega
  have hnone := hnone (by
    obtain ⟨b', rfl⟩ := hb
    push_cast at hdepth ⊢
    split at hdepth <;> omega)
  have hvis : Visited c o root (d + 1) (ts ++ ["allOf"]) m := by
    refine .inr (.inl ⟨.inl hoff, ty, b, path, hm.combines, hm.defs, hm.definitions, ?_⟩)
    unfold combinedDepth
    have e : m.anyOf = n.anyOf := hm.anyOf
    rw [hnone, e]
    simp only [Option.isSome_none, Bool.false_eq_true, if_false]
    push_cast
    split at hdepth <;> simp_all <;> omega
  refine Goes.bind (Q := Done C m) ?_ ?_ ?_
  · intro a
    split
    · exact keeps_nullErr _
    · exact keeps_okGen _
  · refine goes_inScope hr ["allOf"] ?_ (goes_offSources hoff _ ?_)
      (hnode _ _ m hvis (plainTokens_append hts (plainTokens_one (by unfold PlainName; decide))))
    · rw [pointerText_one]; rfl
    · intro x hx
      rcases List.mem_append.1 hx with hx | hx
      · exact hrefs x hx
      · rw [List.mem_singleton.1 hx]; exact .inl href
  · rintro ⟨g, e⟩ ⟨h1, h2⟩
    simp only at h1
    subst h1
    refine Goes.pure fun _ => .allOf (d + 1) _ m g (by rw [hl]; nofun) hvis ?_ h2 ?_
    · intro v hv
      refine valid_allOf (hm.last v hv) ?_
      intro l' x hl' hx
      rw [hl] at hl'
      cases hl'
      exact hm.members x hx v hv
    · intro l' hl' hany hown
      rw [hl] at hl'
      cases hl'
      exact hgat hany hown

theorem Combines.noAnyOf {m : SchemaNode} (h : Combines c o ty A b path m) (h1 : m.defs = none) (h2 : m.definitions = none) :
    Concurs c o ty b path { m with anyOf := none } := by
  have ho := h.own
  have : ({ m with anyOf := none, defs := none, definitions := none } : SchemaNode) = { m with anyOf := none } := by
    cases m; simp_all
  rwa [this] at ho

/-- An alternative that agrees with the others, or a reference to such a schema. -/
def Alternative (c : PEnv) (o : Opts) (root : SchemaNode) (ty : ValuePath → Kind) (b : Nat) (path : ValuePath) (ts : List String)
    (x : SchemaNode) : Prop :=
  Concurs c o ty b path x ∨ (path = [] ∧ ¬ Off root ts ∧ Member c o root ty b ts x)

theorem Alternative.noAnyOf {x : SchemaNode} (h : Alternative c o root ty b path ts x) : x.anyOf = none := by
  rcases h with h | ⟨_, _, h⟩
  · exact h.mergeable.anyOf
  · exact h.noAnyOf

theorem Alternative.ref {x : SchemaNode} (h : Alternative c o root ty b path ts x) :
    x.ref = none ∨ ∃ us, x.ref = some (pointerText us) := by
  rcases h with h | ⟨_, _, h⟩
  · exact .inl h.mergeable.ref
  · exact h.ref

theorem goes_alternative {R : Places} {k e : Nat} {x y : SchemaNode} (hy : Concurs c o ty b path y)
    (hx : Alternative c o root ty b path ts x) :
    Goes c root R pid e ts (mergeNodes c k ([y] ++ [x]))
      (fun m => Merged c o root ty (Concurs c o ty b path) b path [y] x m ∧ ((e : Int) + 1 ≤ c.maxParseDepth → m.allOf = none)) := by
  rcases hx with hx | ⟨rfl, hoff, hx⟩
  · exact goes_merge (fun z hz => by rw [List.mem_singleton.1 hz]; exact hy) hx.combines
  · exact goes_follow hoff (fun z hz => by rw [List.mem_singleton.1 hz]; exact .own hy) (.inr hx)

/-- An alternative of `anyOf`. -/
def BranchDone (c : PEnv) (o : Opts) (root : SchemaNode) (C : SchemaNode → Gen → Prop) (n x : SchemaNode) (g : Gen) : Prop :=
  ∃ d ts m, Visited c o root d ts m ∧
    (∀ v, Valid (patternMeaning c) root m v → Valid (patternMeaning c) root n v) ∧ C m g ∧ KeptAnyOf root n x m

theorem Goes.both {R : Places} {e : Nat} {α : Type} {m : P α} {Q S : α → Prop} (hm : Goes c root R pid e ts m Q)
    (h : ∀ s a s', Good c root R pid e ts s → m s = .ok a s' → s'.errors = [] → S a) :
    Goes c root R pid e ts m (fun a => Q a ∧ S a) := by
  intro s a s' hg hs he
  exact ⟨(hm s a s' hg hs he).1, (hm s a s' hg hs he).2, h s a s' hg hs he⟩

theorem Concurs.copied {x : SchemaNode} (h : Concurs c o ty b path x) (hk : KeptByMerge x) : Copied x :=
  hk.copied (fun p hp => (h.mergeable.names p hp).1) (by rw [h.mergeable.patternProperties]; nofun)

/-- Merging an alternative of a schema that has nothing beside its alternatives. -/
theorem Alternative.merged {R : Places} {e k : Nat} {x t a : SchemaNode} {s s' : PSt} (hx : Alternative c o root ty b path ts x)
    (hd : Denotes root x t) (hk : KeptByMerge t) (hg : Good c root R pid e ts s)
    (h : mergeNodes c k [emptyNode, x] s = .ok a s') (he : s'.errors = []) : a = asMerged t := by
  have key : Concurs c o ty b path x → a = asMerged t := by
    intro hc
    have := hd.ownOnly hc.mergeable.ref
    subst this
    exact (merge_copy' (hc.copied hk) h).1
  rcases hx with hx | ⟨rfl, hoff, hx⟩
  · exact key hx
  · cases hx with
    | own hx => exact key hx
    | refer us t' hf hu hin hpt hout htext hstr hfree hc =>
      have := Denotes.unique s hd (.refer hu hpt) hk.ref hc.mergeable.ref
      subst this
      exact (merge_copy_ref hg hoff hf hu hpt hout htext hstr hfree (hc.copied hk) h he).1

theorem goes_branch (hr : KeepsRec c r) (hnode : NodeGoes c root (Visited c o root) pid C r) (hts : PlainTokens ts)
    (hoff : ∀ us, Off root (ts ++ "anyOf" :: us)) (hc : Combines c o ty (Alternative c o root ty b path ts) b path n)
    (hd : (d : Int) + combinedDepth b n ≤ c.maxParseDepth) {l : List SchemaNode} (hl : n.anyOf = some l) {i : Nat}
    {x : SchemaNode} (hx : x ∈ l) :
    Goes c root (Visited c o root) pid (d + 1) ts (parseBranch c r n false i x) (BranchDone c o root C n x) := by
  have hxc := hc.anyOf l x hl hx
  have hdepth : (d : Int) + 2 * b + 1 ≤ c.maxParseDepth := by
    unfold combinedDepth at hd
    rw [hl] at hd
    simp only [Option.isSome_some, if_true] at hd
    push_cast at hd
    split at hd <;> omega
  have hshallow : ((d + 1 : Nat) : Int) + 1 ≤ c.maxParseDepth := by
    obtain ⟨b', rfl⟩ := hc.pos
    push_cast at hdepth ⊢
    omega
  unfold parseBranch
  have hend : ∀ g : Gen × Option Err, Keeps c (match g.2 with
      | some e => do
        addErrorSub s!"/anyOf/{i}" e
        pure Gen.null
      | none => pure g.1 : P Gen) := by
    intro g
    split
    · exact Keeps.bind (keeps_addErrorSub _ _ _) fun _ => Keeps.pure _
    · exact Keeps.pure _
  have hrest : ∀ m, Keeps c (do
      let g ← parseInScope c r s!"/anyOf/{i}" m [x]
      match g.2 with
      | some e => do
        addErrorSub s!"/anyOf/{i}" e
        pure Gen.null
      | none => pure g.1 : P Gen) := fun m => Keeps.bind (keeps_parseInScope hr _ _ _) fun g => hend g
  simp only [Bool.false_eq_true, if_false]
  have hsome : n.anyOf ≠ some [] := fun h => hc.someAlternative [] h rfl
  refine Goes.bind ?_ (Goes.both (S := fun base => OnlyAnyOf n ∨ KeptByMerge { n with anyOf := none } → base = asMerged n)
    (goes_merge (l := []) (z := n) nofun hc)
    fun s a s' _ h _ ho => (merge_copy (ho.elim (.onlyAnyOf · hsome) fun hk => .beside hsome
      (hk.copied (fun p hp => (hc.own.mergeable.names p hp).1) (by
        rw [show ({ n with anyOf := none } : SchemaNode).patternProperties = none from hc.own.mergeable.patternProperties]; nofun))) h).1) ?_
  · intro base
    exact Keeps.bind (keeps_mergeNodes _ _) fun m => hrest m
  rintro base ⟨⟨hbase, _⟩, hbare⟩
  have hb := hbase.combines.noAnyOf hbase.defs hbase.definitions
  refine Goes.bind (fun m => hrest m) (Goes.both
    (S := KeptAnyOf root n x)
    (goes_alternative hb hxc) fun s a s' hg h he => ⟨fun ho t ht hk => ?_, fun _ hk href hall => ?_⟩) ?_
  · rw [hbare (.inl ho), ho.rest] at h
    exact hxc.merged ht hk hg h he
  · rw [hbare (.inr hk)] at h hb
    have hxo : Concurs c o ty b path x := by
      rcases hxc with hx | ⟨rfl, _, hx⟩
      · exact hx
      · cases hx with
        | own hx => exact hx
        | refer => cases href
    refine merge_gathers (l := [asMerged { n with anyOf := none }]) (A := fun _ => True)
      (fun z hz => by rw [List.mem_singleton.1 hz]; exact hb) hxo.combines ?_ hxo.mergeable.anyOf h he
    intro z hz
    simp only [List.cons_append, List.nil_append, List.mem_cons, List.mem_nil_iff, or_false] at hz
    rcases hz with rfl | rfl
    · exact hk.allOf
    · exact hall
  rintro m ⟨⟨hm, hnone⟩, hkept⟩
  have hnone := hnone hshallow
  have hany : m.anyOf = none := hm.anyOf.trans hxc.noAnyOf
  have hvis : Visited c o root (d + 1) (ts ++ ["anyOf", toString i]) m := by
    refine .inr (.inl ⟨.inl (hoff _), ty, b, path, hm.combines, hm.defs, hm.definitions, ?_⟩)
    unfold combinedDepth
    rw [hnone, hany]
    simp only [Option.isSome_none, Bool.false_eq_true, if_false]
    push_cast
    omega
  refine Goes.bind (Q := Done C m) (fun g => hend g) ?_ ?_
  · refine goes_inScope hr ["anyOf", toString i] ?_ (goes_offSources (hoff _) _ ?_)
      (hnode _ _ m hvis (plainTokens_append hts (plainTokens_two (by unfold PlainName; decide) (plain_toString _))))
    · rw [pointerText_two]; rfl
    · intro y hy
      rw [List.mem_singleton.1 hy]; exact hxc.ref
  · rintro ⟨g, e⟩ ⟨h1, h2⟩
    simp only at h1
    subst h1
    refine Goes.pure ⟨d + 1, _, m, hvis, ?_, h2, hkept⟩
    intro v hv
    refine hbase.last v (valid_anyOf (l := l) (hm.members _ (List.mem_singleton.2 rfl) v hv) ?_ hx (hm.last v hv))
    rw [hbase.anyOf]; exact hl

theorem goes_branches (hr : KeepsRec c r) (hnode : NodeGoes c root (Visited c o root) pid C r) (hts : PlainTokens ts)
    (hoff : ∀ us, Off root (ts ++ "anyOf" :: us)) (hc : Combines c o ty (Alternative c o root ty b path ts) b path n)
    (hd : (d : Int) + combinedDepth b n ≤ c.maxParseDepth) {l : List SchemaNode} (hl : n.anyOf = some l) :
    ∀ (t : List SchemaNode) (i : Nat), (∀ x ∈ t, x ∈ l) →
      Goes c root (Visited c o root) pid (d + 1) ts (parseBranches c r n false i t)
        (List.Forall₂ (BranchDone c o root C n) t) := by
  intro t
  induction t with
  | nil => intro i _; unfold parseBranches; exact Goes.pure .nil
  | cons x t ih =>
    intro i ht
    unfold parseBranches
    refine Goes.bind ?_ (goes_branch hr hnode hts hoff hc hd hl (ht x (by simp))) ?_
    · exact fun _ => Keeps.bind (keeps_parseBranches hr _ _ _ _) fun _ => Keeps.pure _
    intro g hg
    refine Goes.bind (fun _ => Keeps.pure _) (ih (i + 1) fun y hy => ht y (by simp [hy])) ?_
    intro rest hrest
    exact Goes.pure (.cons hg hrest)

/-- What is made of the alternatives. -/
theorem goes_anyOf (hr : KeepsRec c r) {l : List SchemaNode} (hone : n.oneOf = none) (hl : n.anyOf = some l)
    (hbranches : Goes c root (Visited c o root) pid (d + 1) ts (parseBranches c r n false 0 l)
      (List.Forall₂ (BranchDone c o root C n) l)) :
    Goes c root (Visited c o root) pid (d + 1) ts (parseCombination c r n)
      (fun p => p.2 = none → CNode c root (Visited c o root) pid C n p.1) := by
  unfold parseCombination
  simp only [hone, hl, getZeroIfNil, List.length_nil, Nat.lt_irrefl, decide_false, Bool.false_eq_true, if_false]
  refine Goes.bind ?_ hbranches ?_
  · intro gs
    split
    · exact absurd ‹_› (by omega)
    · split
      · exact keeps_okGen _
      · exact keeps_nullErr _
      · exact keeps_okGen _
  intro gs hgs
  rw [if_neg (by omega)]
  match gs, hgs with
  | [], _ => exact Goes.pure fun h => by cases h
  | [g], hgs =>
    cases hgs with
    | cons h ht =>
      cases ht
      obtain ⟨d', ts', m, h1, h2, h3, h4⟩ := h
      exact Goes.pure fun _ => .alternative d' ts' m g (.inl ⟨_, hl, h4⟩) h1 h2 h3
  | g :: g' :: gs, hgs => exact Goes.pure fun _ => .alternatives l _ hl hgs

theorem goes_combination (hr : KeepsRec c r) (hnode : NodeGoes c root (Visited c o root) pid C r) (hts : PlainTokens ts)
    (hoff : ∀ us, Off root (ts ++ "anyOf" :: us)) (hc : Combines c o ty (Alternative c o root ty b path ts) b path n)
    (hd : (d : Int) + combinedDepth b n ≤ c.maxParseDepth) {l : List SchemaNode} (hl : n.anyOf = some l) :
    Goes c root (Visited c o root) pid (d + 1) ts (parseCombination c r n)
      (fun p => p.2 = none → CNode c root (Visited c o root) pid C n p.1) :=
  goes_anyOf hr hc.covered.oneOf hl (goes_branches hr hnode hts hoff hc hd hl l 0 fun _ h => h)

/-! ## Alternatives of any type -/

theorem goes_freeBranch (hr : KeepsRec c r) (hnode : NodeGoes c root (Visited c o root) pid C r) (hts : PlainTokens ts)
    (hoff : ∀ us, Off root (ts ++ "anyOf" :: us)) (ho : OnlyAnyOf n) {l : List SchemaNode} (hl : n.anyOf = some l) {i : Nat}
    {x t : SchemaNode} (hx : x ∈ l) (hst : StandsFor c root ts x t) (hno : x = t ∨ ¬ Off root ts) (hk : KeptByMerge t)
    (hfree : ∀ e us m, Inside t e us m → FreeOk c o root (d + 1 + e) m) :
    Goes c root (Visited c o root) pid (d + 1) ts (parseBranch c r n false i x) (BranchDone c o root C n x) := by
  obtain ⟨hsup, hparts⟩ := FreeOk.alternative hk hfree
  unfold parseBranch
  have hend : ∀ g : Gen × Option Err, Keeps c (match g.2 with
      | some e => do
        addErrorSub s!"/anyOf/{i}" e
        pure Gen.null
      | none => pure g.1 : P Gen) := by
    intro g
    split
    · exact Keeps.bind (keeps_addErrorSub _ _ _) fun _ => Keeps.pure _
    · exact Keeps.pure _
  have hrest : ∀ m, Keeps c (do
      let g ← parseInScope c r s!"/anyOf/{i}" m [x]
      match g.2 with
      | some e => do
        addErrorSub s!"/anyOf/{i}" e
        pure Gen.null
      | none => pure g.1 : P Gen) := fun m => Keeps.bind (keeps_parseInScope hr _ _ _) fun g => hend g
  simp only [Bool.false_eq_true, if_false]
  refine Goes.bind (Q := fun base => base = asMerged n) ?_ ?_ ?_
  · intro base
    exact Keeps.bind (keeps_mergeNodes _ _) fun m => hrest m
  · intro s a s' hg h _
    obtain ⟨rfl, rfl⟩ := merge_copy (.onlyAnyOf ho (by rw [hl]; rintro h; cases h; cases hx)) h
    exact ⟨hg, rfl⟩
  rintro base rfl
  refine Goes.bind (Q := fun m => m = asMerged t) (fun m => hrest m) ?_ ?_
  · intro s a s' hg h he
    rw [ho.rest] at h
    have hcop := hk.copied (fun p hp => (hsup.object.names p hp).1) fun p hp => (hsup.object.patterns p hp).names.1
    cases hst with
    | own =>
      obtain ⟨rfl, rfl⟩ := merge_copy' hcop h
      exact ⟨hg, rfl⟩
    | refer hf hu hin hpt hout htext hstr hfree =>
      have hno : ¬ Off root ts := hno.resolve_left fun h => by rw [← h] at hk; exact absurd hk.ref nofun
      obtain ⟨rfl, hm⟩ := merge_copy_ref hg hno hf hu hpt hout htext hstr hfree hcop h he
      exact ⟨hg.moved hm, rfl⟩
  rintro m rfl
  have hvis : Visited c o root (d + 1) (ts ++ ["anyOf", toString i]) (asMerged t) :=
    .inr (.inr ⟨hoff _, d + 1, asMerged t, [], 0, rfl, .root, hparts⟩)
  refine Goes.bind (Q := Done C (asMerged t)) (fun g => hend g) ?_ ?_
  · refine goes_inScope hr ["anyOf", toString i] ?_ (goes_offSources (hoff _) _ ?_)
      (hnode _ _ _ hvis (plainTokens_append hts (plainTokens_two (by unfold PlainName; decide) (plain_toString _))))
    · rw [pointerText_two]; rfl
    · intro y hy
      rw [List.mem_singleton.1 hy]
      cases hst with
      | own => exact .inl hk.ref
      | refer => exact .inr ⟨_, rfl⟩
  · rintro ⟨g, e⟩ ⟨h1, h2⟩
    simp only at h1
    subst h1
    refine Goes.pure ⟨d + 1, _, asMerged t, hvis, ?_, h2, fun _ t' ht' hk' => ?_, fun h => (h ho).elim⟩
    · intro v hv
      have hv := valid_of_asMerged hk.covered (fun d hd => (hk.items d hd).1) hv
      refine ho.valid hl hx ?_
      cases hst with
      | own => exact hv
      | refer hf hu hin => exact Below.refer hu hin (.refl _) v hv
    · rw [Denotes.unique {} hst.denotes ht' hk.ref hk'.ref]

theorem goes_union (hr : KeepsRec c r) (hnode : NodeGoes c root (Visited c o root) pid C r) (hts : PlainTokens ts)
    (hoff : ∀ us, Off root (ts ++ "anyOf" :: us)) (ho : OnlyAnyOf n) {l : List SchemaNode} (hl : n.anyOf = some l)
    (hp : ∀ x ∈ l, ∃ t, StandsFor c root ts x t ∧ (x = t ∨ ¬ Off root ts) ∧ KeptByMerge t ∧
      ∀ e us m, Inside t e us m → FreeOk c o root (d + 1 + e) m) :
    Goes c root (Visited c o root) pid (d + 1) ts (parseCombination c r n)
      (fun p => p.2 = none → CNode c root (Visited c o root) pid C n p.1) := by
  refine goes_anyOf hr ho.covered.oneOf hl ?_
  have key : ∀ (t : List SchemaNode) (i : Nat), (∀ x ∈ t, x ∈ l) →
      Goes c root (Visited c o root) pid (d + 1) ts (parseBranches c r n false i t)
        (List.Forall₂ (BranchDone c o root C n) t) := by
    intro t
    induction t with
    | nil => intro i _; unfold parseBranches; exact Goes.pure .nil
    | cons x t ih =>
      intro i ht
      unfold parseBranches
      obtain ⟨y, h1, h2, h3, h4⟩ := hp x (ht x (by simp))
      refine Goes.bind ?_ (goes_freeBranch hr hnode hts hoff ho hl (ht x (by simp)) h1 h2 h3 h4) ?_
      · exact fun _ => Keeps.bind (keeps_parseBranches hr _ _ _ _) fun _ => Keeps.pure _
      intro g hg
      refine Goes.bind (fun _ => Keeps.pure _) (ih (i + 1) fun y hy => ht y (by simp [hy])) ?_
      intro rest hrest
      exact Goes.pure (.cons hg hrest)
  exact key l 0 fun _ h => h

/-! ## Merging one schema -/

/-- Merging one schema that is as the merger leaves schemas. -/
theorem merge_lone {k : Nat} {s s' : PSt} {a : SchemaNode} {t : Kind}
    (hm : Mergeable c o t { n with oneOf := none, defs := none, definitions := none }) (hw : AsWritten n)
    (hone : n.oneOf ≠ some []) (h : mergeNodes c k [n] s = .ok a s') :
    a = { n with defs := none, definitions := none } ∧ s' = s := by
  have hcov := hm.covered
  have e1 : n.ref = none := hm.ref
  have e2 : n.allOf = none := hw.allOf
  have e3 : n.anyOf = none := hm.anyOf
  have e4 : n.additionalProperties = none := hm.additionalProperties
  have e5 : n.patternProperties = none := hm.patternProperties
  have e6 : n.prefixItems = none := hm.prefixItems
  have e7 : n.contains = none := hm.contains
  have e8 : n.multipleOf = none := hm.multipleOf
  have e9 : n.not = none := hcov.not
  have e10 : n.ifN = none := hcov.ifN
  have e11 : n.mergedIf = [] := hcov.mergedIf
  have e12 : n.mergedNot = [] := hcov.mergedNot
  have e13 : n.constraints = none := hcov.constraints
  have e14 : n.id = none := hcov.id
  have e15 : n.dependentRequired = [] := hcov.dependentRequired
  have e16 : n.dependentSchemas = [] := hcov.dependentSchemas
  have e17 : n.additionalItems = none := hcov.additionalItems
  have e18 : n.unevaluatedItems = none := hcov.unevaluatedItems
  have e19 : n.maxContains = none := hcov.maxContains
  have e20 : n.minContains = none := hm.minContains
  have e21 : n.thenN = none := hw.thenN
  have e22 : n.elseN = none := hw.elseN
  have htype : mergeTypes none n.type = n.type := by
    cases hty : n.type with
    | none => rfl
    | some x =>
      rw [hm.type x hty]
      have : t.type ≠ "" := fun h => absurd (h ▸ hm.known) (by decide)
      unfold mergeTypes
      simp [this]
  have htype' : mergeTypes emptyNode.type n.type = n.type := htype
  have henum : ∀ m : SchemaNode, m.enum = none → m.const = none →
      mergeEnumAndConst m n s = .ok { m with enum := n.enum, const := n.const } s := by
    intro m h1 h2
    unfold mergeEnumAndConst collectEnumValues
    rw [h1, h2]
    cases h3 : n.enum with
    | none =>
      cases h4 : n.const with
      | none =>
        rcases m with ⟨⟨⟩⟩
        simp only at h1 h2
        subst h1 h2
        rfl
      | some v => rfl
    | some l =>
      have h4 : n.const = none := by
        rcases hm.oneList with h | h
        · exact absurd (h.symm.trans h3) nofun
        · exact h
      rw [h4]
      match l, h3 with
      | [], h3 => exact (hm.someValue [] h3 rfl).elim
      | [v], h3 => exact (hw.enum v h3).elim
      | _ :: _ :: _, _ => rfl
  have hprops : ∀ rec : MergeRec, mergeMap rec none n.properties s = .ok n.properties s := by
    intro rec
    unfold mergeMap
    cases hp : n.properties with
    | none => rfl
    | some p =>
      simp only [getZeroIfNil]
      rw [bind_apply, mergeMapLoop_fresh s p [] (by simpa using (hm.names p hp).1)]
      rfl
  have hitems : ∀ rec : MergeRec, mergeItems rec none n.items s = .ok n.items s := by
    intro rec
    unfold mergeItems
    cases hp : n.items with
    | none => rfl
    | some x =>
      obtain ⟨y, rfl⟩ := hw.items x hp
      rfl
  have hsubs : ∀ (rec : MergeRec) (m : SchemaNode), m.properties = none → m.additionalProperties = none →
      m.patternProperties = none → m.prefixItems = none → m.items = none → m.additionalItems = none →
      m.unevaluatedItems = none → m.contains = none → m.oneOf = none → m.anyOf = none → m.allOf = none →
      mergeSubs rec m n s = .ok { m with properties := n.properties, items := n.items, oneOf := n.oneOf } s := by
    intro rec m m1 m2 m3 m4 m5 m6 m7 m8 m9 m10 m11
    unfold mergeSubs
    rw [m1, m2, m3, m4, m5, m6, m7, m8, m9, m10, m11, e4, e5, e6, e17, e18, e7, e3, e2, slice_one hone]
    simp only [bind_apply, hprops, hitems]
    simp only [mergeNodeOrFalse, mergeMap, mergePrefixItems, mergePtrs, pure_apply, mergeSlicePtrs, List.foldl_cons, List.foldl_nil,
      List.length_nil, if_true]
    cases m
    simp_all
  cases k with
  | zero => simp [mergeNodes, outOfFuel] at h
  | succ k =>
    have h : mergeStep c k (mergeNodes c k) [n] s = .ok a s' := h
    unfold mergeStep at h
    obtain ⟨m, s1, h1, h2⟩ := bind_ok.1 h
    unfold mergeLoop at h1
    obtain ⟨m', s2, h3, h4⟩ := bind_ok.1 h1
    unfold mergeLoop at h4
    obtain ⟨rfl, rfl⟩ := pure_ok.1 h4
    rw [mergeOne_plain e1] at h3
    have hfields : mergeFields c.fp (mergeNodes c k) emptyNode n s = .ok { n with defs := none, definitions := none } s := by
      unfold mergeFields
      rw [bind_apply, henum _ rfl rfl]
      simp only
      rw [bind_apply, hsubs _ _ rfl rfl rfl rfl rfl rfl rfl rfl rfl rfl rfl]
      have hs : ∀ m : SchemaNode, m.length = none → m.pattern = none → m.format = none → m.uniqueItems = none →
          warnSimple m n s = .ok () s := by
        intro m m1 m2 m3 m4
        unfold warnSimple
        rw [m1, m2, m3, m4]
        cases n.length <;> rfl
      simp only
      rw [bind_apply]
      simp only [gets]
      rw [bind_apply, hs]
      · simp only [mergeIf, mergeNot, mergeNotCollected, mergeNotOwn, e9, e10, e11, e12, e13, e1, mergeSimple, mergeConstraints,
          List.length_nil, Nat.lt_irrefl, if_false, Option.isSome_none, Bool.false_eq_true]
        refine congrArg (fun x => Res.ok x s) ?_
        have p1 : ∀ x : Option Int, maxPtr [x, none] = x := fun x => by cases x <;> rfl
        have p2 : ∀ x : Option Int, minPtr [x, none] = x := fun x => by cases x <;> rfl
        have p3 : ∀ x : Option Rat, maxPtr [x, none] = x := fun x => by cases x <;> rfl
        have p4 : ∀ x : Option Rat, minPtr [x, none] = x := fun x => by cases x <;> rfl
        have p5 : ∀ {α : Type} (x : Option α), getPtr [x, none] = x := fun x => by cases x <;> rfl
        rw [htype', e8]
        simp only [emptyNode, p1, p2, p3, p4, p5, slice_one hw.required, findHcf]
        clear henum hprops hitems hsubs hs h hm hw hcov hone htype htype'
        rcases n with ⟨⟨⟩⟩
        simp only at *
        subst_vars
        rfl
      all_goals
        simp only [mergeIf, mergeNot, mergeNotCollected, mergeNotOwn, e9, e12, List.length_nil, Nat.lt_irrefl, if_false]
        rfl
    rw [hfields] at h3
    cases h3
    cases k with
    | zero => simp [flattenResidual, outOfFuel] at h2
    | succ k =>
      unfold flattenResidual at h2
      simp only [e2] at h2
      obtain ⟨rfl, rfl⟩ := pure_ok.1 h2
      exact ⟨by rw [e2], rfl⟩

/-! ## Choices -/

/-- Definitions do not matter for validity. -/
theorem valid_defs {pat : String → String → Prop} {n : SchemaNode} {v : JVal}
    (h : Valid pat root { n with defs := none, definitions := none } v) : Valid pat root n v := by
  obtain ⟨_, _, target, alternative, found, hc, hl, h1, h2, h3, h4, h5, h6, h7, h8, h9, h10, h11, h12, chosen, o1, o2, o3, holds, i1, i2, i3, i4, ng⟩ := h
  exact .intro n v target alternative found ⟨hc.1, hc.2, hc.3, hc.4, hc.5, hc.6, hc.7, hc.8, hc.9, hc.10, hc.11, hc.12, hc.13⟩
    ⟨hl.1, hl.2, hl.3, fun q hq => ⟨(hl.4 q hq).1, (hl.4 q hq).2, (hl.4 q hq).3, (hl.4 q hq).4, (hl.4 q hq).5⟩, hl.5, hl.6, hl.7,
      hl.8, hl.9, hl.10, hl.11, hl.12, hl.13, hl.14, hl.15⟩ h1 h2 h3 h4 h5 h6 h7 h8 h9 h10 h11 h12
    chosen o1 o2 o3 holds i1 i2 i3 i4 ng

/-- A choice with one alternative. -/
theorem valid_only {pat : String → String → Prop} {n x : SchemaNode} {v : JVal} (hx : n.oneOf = some [x])
    (h : Valid pat root { n with oneOf := none } v) (hv : Valid pat root x v) : Valid pat root n v := by
  obtain ⟨_, _, target, alternative, found, hc, hl, h1, h2, h3, h4, h5, h6, h7, h8, h9, h10, h11, h12, _, _, _, _, holds, i1, i2, i3, i4, ng⟩ := h
  refine .intro n v target alternative found ⟨hc.1, hc.2, hc.3, hc.4, hc.5, hc.6, hc.7, hc.8, hc.9, hc.10, hc.11, hc.12, hc.13⟩
    ⟨hl.1, hl.2, hl.3, fun q hq => ⟨(hl.4 q hq).1, (hl.4 q hq).2, (hl.4 q hq).3, (hl.4 q hq).4, (hl.4 q hq).5⟩, hl.5, hl.6, hl.7,
      hl.8, hl.9, hl.10, hl.11, hl.12, hl.13, hl.14, hl.15⟩ h1 h2 h3 h4 h5 h6 h7 h8 h9 h10 h11 h12
    0 ?_ ?_ ?_ holds i1 i2 i3 i4 ng
  · intro l hl; rw [hx] at hl; cases hl; exact Nat.zero_lt_one
  · intro l y hl hy; rw [hx] at hl; cases hl; cases hy; exact hv
  · intro l y i hl hy hi
    rw [hx] at hl
    cases hl
    cases i with
    | zero => exact (hi rfl).elim
    | succ i => cases hy

theorem goes_error {β : Type} {R : Places} {e : Nat} {p : String} {x : Err} {f : Unit → P β} {Q : β → Prop}
    (hf : ∀ a, Keeps c (f a)) : Goes c root R pid e ts (addErrorSub p x >>= f) Q := by
  intro s a s' hg h he
  obtain ⟨_, s1, h1, h2⟩ := bind_ok.1 h
  have := (hf _ s1 a s' h2).noErrors he
  unfold addErrorSub at h1
  rw [modS_apply] at h1
  injection h1 with _ h1
  rw [← h1] at this
  cases this

theorem Choice.lone {R : Places} {k e : Nat} (h : Choice c o root ty b n) :
    Goes c root R pid e ts (mergeNodes c k [n]) (fun m => m = { n with defs := none, definitions := none }) := by
  intro s a s' hg hm _
  obtain ⟨rfl, rfl⟩ := merge_lone h.own.mergeable h.written h.someAlternative hm
  exact ⟨hg, rfl⟩

/-- An alternative of `oneOf`: the values are valid for the rest and for the alternative, and if there is nothing beside the
alternatives the schema is the alternative as the merger leaves it. -/
def VariantDone (c : PEnv) (o : Opts) (root : SchemaNode) (C : SchemaNode → Gen → Prop) (n x : SchemaNode) (g : Gen) : Prop :=
  ∃ d ts m, Visited c o root d ts m ∧ (∀ v, Valid (patternMeaning c) root m v →
    Valid (patternMeaning c) root { n with oneOf := none } v ∧ Valid (patternMeaning c) root x v) ∧ C m g ∧
    KeptOneOf n x m

theorem goes_choiceBranch (hr : KeepsRec c r) (hnode : NodeGoes c root (Visited c o root) pid C r) (hts : PlainTokens ts)
    (hoff : ∀ us, Off root (ts ++ "oneOf" :: us)) (hc : Choice c o root ty b n)
    (hd : (d : Int) + 2 * b + 1 ≤ c.maxParseDepth) {l : List SchemaNode} (hl : n.oneOf = some l) {i : Nat}
    {x : SchemaNode} (hx : x ∈ l) :
    Goes c root (Visited c o root) pid (d + 1) ts (parseBranch c r n true i x) (VariantDone c o root C n x) := by
  obtain ⟨hxc, _, _⟩ := hc.alternatives l x hl hx
  have hshallow : ((d + 1 : Nat) : Int) + 1 ≤ c.maxParseDepth := by
    obtain ⟨b', rfl⟩ := hc.own.pos
    push_cast at hd ⊢
    omega
  unfold parseBranch
  have hend : ∀ g : Gen × Option Err, Keeps c (match g.2 with
      | some e => do
        addErrorSub s!"/oneOf/{i}" e
        pure Gen.null
      | none => pure g.1 : P Gen) := by
    intro g
    split
    · exact Keeps.bind (keeps_addErrorSub _ _ _) fun _ => Keeps.pure _
    · exact Keeps.pure _
  have hrest : ∀ m, Keeps c (do
      let g ← parseInScope c r s!"/oneOf/{i}" m [x]
      match g.2 with
      | some e => do
        addErrorSub s!"/oneOf/{i}" e
        pure Gen.null
      | none => pure g.1 : P Gen) := fun m => Keeps.bind (keeps_parseInScope hr _ _ _) fun g => hend g
  simp only [if_true]
  refine Goes.bind ?_ hc.lone ?_
  · intro base
    exact Keeps.bind (keeps_mergeNodes _ _) fun m => hrest m
  rintro base rfl
  refine Goes.bind (fun m => hrest m)
    (Goes.both (S := KeptOneOf n x)
      (goes_merge (l := [{ n with oneOf := none, defs := none, definitions := none }])
        (fun z hz => by rw [List.mem_singleton.1 hz]; exact hc.own) (hxc.combines (A := Concurs c o ty b [])))
      fun s a s' _ h he => ⟨fun ho hk => ?_, fun _ hall => ?_⟩) ?_
  · have h : mergeNodes c r.fuel [{ n with oneOf := none, defs := none, definitions := none }, x] s = .ok a s' := h
    rw [ho.bare] at h
    exact (merge_copy' (hxc.copied hk) h).1
  · refine merge_gathers (l := [{ n with oneOf := none, defs := none, definitions := none }]) (A := fun _ => True)
      (fun z hz => by rw [List.mem_singleton.1 hz]; exact hc.own) hxc.combines ?_ hxc.mergeable.anyOf h he
    intro z hz
    simp only [List.cons_append, List.nil_append, List.mem_cons, List.mem_nil_iff, or_false] at hz
    rcases hz with rfl | rfl
    · exact hc.written.allOf
    · exact hall
  rintro m ⟨⟨hm, hnone⟩, hkept⟩
  have hnone := hnone hshallow
  have hany : m.anyOf = none := hm.anyOf.trans hxc.mergeable.anyOf
  have hvis : Visited c o root (d + 1) (ts ++ ["oneOf", toString i]) m := by
    refine .inr (.inl ⟨.inl (hoff _), ty, b, [], hm.combines, hm.defs, hm.definitions, ?_⟩)
    unfold combinedDepth
    rw [hnone, hany]
    simp only [Option.isSome_none, Bool.false_eq_true, if_false]
    push_cast
    omega
  refine Goes.bind (Q := Done C m) (fun g => hend g) ?_ ?_
  · refine goes_inScope hr ["oneOf", toString i] ?_ (goes_offSources (hoff _) _ ?_)
      (hnode _ _ m hvis (plainTokens_append hts (plainTokens_two (by unfold PlainName; decide) (plain_toString _))))
    · rw [pointerText_two]; rfl
    · intro y hy
      rw [List.mem_singleton.1 hy]; exact .inl hxc.mergeable.ref
  · rintro ⟨g, e⟩ ⟨h1, h2⟩
    simp only at h1
    subst h1
    refine Goes.pure ⟨d + 1, _, m, hvis, ?_, h2, hkept⟩
    intro v hv
    exact ⟨valid_defs (n := { n with oneOf := none }) (hm.members _ (List.mem_singleton.2 rfl) v hv), hm.last v hv⟩

theorem goes_choiceBranches (hr : KeepsRec c r) (hnode : NodeGoes c root (Visited c o root) pid C r) (hts : PlainTokens ts)
    (hoff : ∀ us, Off root (ts ++ "oneOf" :: us)) (hc : Choice c o root ty b n)
    (hd : (d : Int) + 2 * b + 1 ≤ c.maxParseDepth) {l : List SchemaNode} (hl : n.oneOf = some l) :
    ∀ (t : List SchemaNode) (i : Nat), (∀ x ∈ t, x ∈ l) →
      Goes c root (Visited c o root) pid (d + 1) ts (parseBranches c r n true i t)
        (List.Forall₂ (VariantDone c o root C n) t) := by
  intro t
  induction t with
  | nil => intro i _; unfold parseBranches; exact Goes.pure .nil
  | cons x t ih =>
    intro i ht
    unfold parseBranches
    refine Goes.bind ?_ (goes_choiceBranch hr hnode hts hoff hc hd hl (ht x (by simp))) ?_
    · exact fun _ => Keeps.bind (keeps_parseBranches hr _ _ _ _) fun _ => Keeps.pure _
    intro g hg
    refine Goes.bind (fun _ => Keeps.pure _) (ih (i + 1) fun y hy => ht y (by simp [hy])) ?_
    intro rest hrest
    exact Goes.pure (.cons hg hrest)

theorem goes_flattenAll {R : Places} {k e : Nat} : ∀ (t : List SchemaNode),
    (∀ x ∈ t, Concurs c o ty b [] x ∧ AsWritten x) → Goes c root R pid e ts (flattenAll c k t) (fun r => r = t) := by
  intro t
  induction t with
  | nil => intro _; exact Goes.pure rfl
  | cons x t ih =>
    intro ht
    unfold flattenAll
    obtain ⟨h1, h2⟩ := ht x (by simp)
    have hm := h1.mergeable
    have e1 : x.defs = none := hm.defs
    have e2 : x.definitions = none := hm.definitions
    have e3 : x.oneOf = none := hm.covered.oneOf
    have hx : ({ x with oneOf := none, defs := none, definitions := none } : SchemaNode) = x := by
      cases x; simp_all
    have hx' : ({ x with defs := none, definitions := none } : SchemaNode) = x := by
      cases x; simp_all
    refine Goes.bind (Q := fun m => m = x) (fun _ => Keeps.bind (keeps_flattenAll _ _) fun _ => Keeps.pure _) ?_ ?_
    · intro s a s' hg h _
      obtain ⟨rfl, rfl⟩ := merge_lone (t := ty []) (by rw [hx]; exact hm) h2 (by rw [e3]; nofun) h
      exact ⟨hg, hx'⟩
    · rintro _ rfl
      refine Goes.bind (fun _ => Keeps.pure _) (ih fun y hy => ht y (by simp [hy])) ?_
      rintro _ rfl
      exact Goes.pure rfl

theorem goes_oneOfValidators {R : Places} {e d : Nat} (hin : Inside root d ts n) {l : List SchemaNode} (hl : n.oneOf = some l)
    (hn : NamesApart root) (hj : ∀ x ∈ l, Judged c root x) : ∀ (t pre : List SchemaNode), l = pre ++ t →
      Goes c root R pid e ts (oneOfValidators c pre.length t) (List.Forall₂ (Decides c root) t) := by
  intro t
  induction t with
  | nil => intro _ _; exact Goes.pure .nil
  | cons x t ih =>
    intro pre hp
    unfold oneOfValidators
    have hx : l[pre.length]? = some x := by rw [hp]; simp
    have ht := ih (pre ++ [x]) (by rw [hp]; simp)
    rw [List.length_append, List.length_singleton] at ht
    refine Goes.bind ?_ (goes_asked (.alternative hin hl hx) hn (hj x (List.mem_of_getElem? hx))) ?_
    · intro a
      split
      · exact Keeps.bind (keeps_addErrorSub _ _ _) fun _ => keeps_oneOfValidators _ _
      · exact Keeps.bind (keeps_oneOfValidators _ _) fun _ => Keeps.pure _
    intro a ha
    cases a with
    | none => exact goes_error fun _ => keeps_oneOfValidators _ _
    | some f =>
      refine Goes.bind (fun _ => Keeps.pure _) ht ?_
      intro rest hrest
      exact Goes.pure (.cons (ha f rfl) hrest)

/-- What is made of the alternatives of `oneOf`. -/
theorem goes_oneOf (hr : KeepsRec c r) {l : List SchemaNode} (hl : n.oneOf = some l) (hne : l ≠ [])
    (hbranches : Goes c root (Visited c o root) pid (d + 1) ts (parseBranches c r n true 0 l)
      (List.Forall₂ (VariantDone c o root C n) l))
    (htests : Goes c root (Visited c o root) pid (d + 1) ts (flattenAll c r.fuel l >>= oneOfValidators c 0)
      (List.Forall₂ (Decides c root) l)) :
    Goes c root (Visited c o root) pid (d + 1) ts (parseCombination c r n)
      (fun p => p.2 = none → CNode c root (Visited c o root) pid C n p.1) := by
  have hpos : 0 < l.length := List.length_pos_iff.2 hne
  unfold parseCombination
  simp only [hl, getZeroIfNil, hpos, decide_true, if_true]
  refine Goes.bind ?_ hbranches ?_
  · intro gs
    split
    · exact Keeps.bind (keeps_flattenAll _ _) fun _ => Keeps.bind (keeps_oneOfValidators _ _) fun _ => keeps_okGen _
    · split
      · exact keeps_okGen _
      · exact keeps_nullErr _
      · exact keeps_okGen _
  intro gs hgs
  by_cases h1 : 1 < l.length
  · rw [if_pos h1]
    intro s a s' hg h he
    obtain ⟨t, s1, h2, h3⟩ := bind_ok.1 h
    obtain ⟨fs, s2, h4, h5⟩ := bind_ok.1 h3
    cases h5
    obtain ⟨hg', hfs⟩ := htests s fs _ hg (bind_ok.2 ⟨t, s1, h2, h4⟩) he
    refine ⟨hg', fun _ => .oneOf _ gs fs hl ?_ hfs⟩
    exact hgs.imp fun y g ⟨d, ts, m, h1, h2, h3, h4⟩ => ⟨d, ts, m, h1, fun v hv => (h2 v hv).1, h3, h4⟩
  · rw [if_neg h1]
    obtain ⟨x, rfl⟩ : ∃ x, l = [x] := by
      match l, hpos, h1 with
      | [x], _, _ => exact ⟨x, rfl⟩
      | _ :: _ :: _, _, h1 => exact (h1 (by simp)).elim
    cases hgs with
    | cons hg hnil =>
      cases hnil
      obtain ⟨d', ts', m, h2, h3, h4, h5⟩ := hg
      refine Goes.pure fun _ => .alternative d' ts' m _ (.inr ⟨x, hl, h5⟩) h2 ?_ h4
      intro v hv
      exact valid_only hl (h3 v hv).1 (h3 v hv).2

theorem goes_choice (hr : KeepsRec c r) (hnode : NodeGoes c root (Visited c o root) pid C r) (hts : PlainTokens ts)
    (hin : Inside root d ts n) (hc : Choice c o root ty b n) (hd : (d : Int) + 2 * b + 1 ≤ c.maxParseDepth) :
    Goes c root (Visited c o root) pid (d + 1) ts (parseCombination c r n)
      (fun p => p.2 = none → CNode c root (Visited c o root) pid C n p.1) := by
  have hoff : ∀ us, Off root (ts ++ "oneOf" :: us) := fun us => .intro "oneOf" us hin (by decide)
  cases hl : n.oneOf with
  | none => exact (hc.has hl).elim
  | some l =>
    refine goes_oneOf hr hl (fun h => hc.someAlternative (by rw [hl, h]))
      (goes_choiceBranches hr hnode hts hoff hc hd hl l 0 fun _ h => h) ?_
    refine Goes.bind (fun _ => keeps_oneOfValidators _ _) (goes_flattenAll (o := o) (ty := ty) (b := b) l fun x hx =>
      ⟨(hc.alternatives l x hl hx).1, (hc.alternatives l x hl hx).2.1⟩) ?_
    rintro _ rfl
    exact goes_oneOfValidators hin hl hc.names (fun x hx => (hc.alternatives _ x hl hx).2.2) _ [] rfl

/-! ## Choices between alternatives of any type -/

/-- The text of a schema without definitions is the same after merging. -/
theorem encodeNode_asMerged {x : SchemaNode} (hk : KeptByMerge x) (h1 : x.defs = none) (h2 : x.definitions = none) :
    encodeNode (asMerged x) = encodeNode x := by
  have hi : encOptItems "items" (x.items.map fun d => { node := d.node }) = encOptItems "items" x.items := by
    cases hd : x.items with
    | none => rfl
    | some d =>
      obtain ⟨h3, h4⟩ := hk.items d hd
      rcases d with ⟨node, nodes, disallow⟩
      simp only at h3 h4
      subst h3
      cases node with
      | none => exact (h4 rfl).elim
      | some y =>
        simp only [Option.map_some, encOptItems, encItems, Bool.false_eq_true, if_false, Option.isSome_some, if_true]
  clear hk
  unfold asMerged
  rcases x with ⟨base, props, addP, patP, items, cont, pre, addI, unevI, notN, allO, anyO, oneO, defs, dfn, ifN, thenN, elseN, depS, a1, a2, a3⟩
  simp only at h1 h2 hi
  subst h1 h2
  simp only [encodeNode, hi]

theorem oneOfValidators_asMerged : ∀ (l : List SchemaNode) (i : Nat),
    (∀ x ∈ l, KeptByMerge x ∧ x.defs = none ∧ x.definitions = none) →
    oneOfValidators c i (l.map asMerged) = oneOfValidators c i l := by
  intro l
  induction l with
  | nil => intro _ _; rfl
  | cons x l ih =>
    intro i h
    obtain ⟨h1, h2, h3⟩ := h x (by simp)
    have hv : ∀ f, validatorFor c (asMerged x) f = validatorFor c x f := by
      intro f
      unfold validatorFor
      rw [encodeNode_asMerged h1 h2 h3]
    simp only [List.map_cons, oneOfValidators, hv, ih _ fun y hy => h y (by simp [hy])]

theorem goes_flattenFree {R : Places} {k e : Nat} : ∀ (t : List SchemaNode),
    (∀ x ∈ t, Copied x) → Goes c root R pid e ts (flattenAll c k t) (fun r => r = t.map asMerged) := by
  intro t
  induction t with
  | nil => intro _; exact Goes.pure rfl
  | cons x t ih =>
    intro ht
    unfold flattenAll
    refine Goes.bind (Q := fun m => m = asMerged x) (fun _ => Keeps.bind (keeps_flattenAll _ _) fun _ => Keeps.pure _) ?_ ?_
    · intro s a s' hg h _
      obtain ⟨rfl, rfl⟩ := merge_copy (ht x (by simp)) h
      exact ⟨hg, rfl⟩
    · rintro _ rfl
      refine Goes.bind (fun _ => Keeps.pure _) (ih fun y hy => ht y (by simp [hy])) ?_
      rintro _ rfl
      exact Goes.pure rfl

theorem goes_variant (hr : KeepsRec c r) (hnode : NodeGoes c root (Visited c o root) pid C r) (hts : PlainTokens ts)
    (hoff : ∀ us, Off root (ts ++ "oneOf" :: us)) (ho : OnlyOneOf n) {l : List SchemaNode} (hl : n.oneOf = some l) {i : Nat}
    {x : SchemaNode} (hx : x ∈ l) (hk : KeptByMerge x)
    (hfree : ∀ e us m, Inside x e us m → FreeOk c o root (d + 1 + e) m) :
    Goes c root (Visited c o root) pid (d + 1) ts (parseBranch c r n true i x) (VariantDone c o root C n x) := by
  obtain ⟨hsup, hparts⟩ := FreeOk.alternative hk hfree
  unfold parseBranch
  have hend : ∀ g : Gen × Option Err, Keeps c (match g.2 with
      | some e => do
        addErrorSub s!"/oneOf/{i}" e
        pure Gen.null
      | none => pure g.1 : P Gen) := by
    intro g
    split
    · exact Keeps.bind (keeps_addErrorSub _ _ _) fun _ => Keeps.pure _
    · exact Keeps.pure _
  have hrest : ∀ m, Keeps c (do
      let g ← parseInScope c r s!"/oneOf/{i}" m [x]
      match g.2 with
      | some e => do
        addErrorSub s!"/oneOf/{i}" e
        pure Gen.null
      | none => pure g.1 : P Gen) := fun m => Keeps.bind (keeps_parseInScope hr _ _ _) fun g => hend g
  simp only [if_true]
  refine Goes.bind (Q := fun base => base = asMerged n) ?_ ?_ ?_
  · intro base
    exact Keeps.bind (keeps_mergeNodes _ _) fun m => hrest m
  · intro s a s' hg h _
    obtain ⟨rfl, rfl⟩ := merge_copy (.onlyOneOf ho (by rw [hl]; rintro h; cases h; cases hx)) h
    exact ⟨hg, rfl⟩
  rintro base rfl
  refine Goes.bind (Q := fun m => m = asMerged x) (fun m => hrest m) ?_ ?_
  · intro s a s' hg h he
    rw [ho.rest] at h
    obtain ⟨rfl, rfl⟩ := merge_copy' (hk.copied (fun p hp => (hsup.object.names p hp).1)
      fun p hp => (hsup.object.patterns p hp).names.1) h
    exact ⟨hg, rfl⟩
  rintro m rfl
  have hvis : Visited c o root (d + 1) (ts ++ ["oneOf", toString i]) (asMerged x) :=
    .inr (.inr ⟨hoff _, d + 1, asMerged x, [], 0, rfl, .root, hparts⟩)
  refine Goes.bind (Q := Done C (asMerged x)) (fun g => hend g) ?_ ?_
  · refine goes_inScope hr ["oneOf", toString i] ?_ (goes_offSources (hoff _) _ ?_)
      (hnode _ _ _ hvis (plainTokens_append hts (plainTokens_two (by unfold PlainName; decide) (plain_toString _))))
    · rw [pointerText_two]; rfl
    · intro y hy
      rw [List.mem_singleton.1 hy]
      exact .inl hk.ref
  · rintro ⟨g, e⟩ ⟨h1, h2⟩
    simp only at h1
    subst h1
    refine Goes.pure ⟨d + 1, _, asMerged x, hvis, ?_, h2, fun _ _ => rfl, fun h => (h ho).elim⟩
    intro v hv
    exact ⟨ho.free v, valid_of_asMerged hk.covered (fun d hd => (hk.items d hd).1) hv⟩

theorem goes_variants (hr : KeepsRec c r) (hnode : NodeGoes c root (Visited c o root) pid C r) (hts : PlainTokens ts)
    (hin : Inside root d ts n) (ho : OnlyOneOf n) {l : List SchemaNode} (hl : n.oneOf = some l) (hne : l ≠ [])
    (hnames : NamesApart root)
    (hp : ∀ x ∈ l, KeptByMerge x ∧ x.defs = none ∧ x.definitions = none ∧ Judged c root x ∧
      ∀ e us m, Inside x e us m → FreeOk c o root (d + 1 + e) m) :
    Goes c root (Visited c o root) pid (d + 1) ts (parseCombination c r n)
      (fun p => p.2 = none → CNode c root (Visited c o root) pid C n p.1) := by
  have hoff : ∀ us, Off root (ts ++ "oneOf" :: us) := fun us => .intro "oneOf" us hin (by decide)
  refine goes_oneOf hr hl hne ?_ ?_
  · have key : ∀ (t : List SchemaNode) (i : Nat), (∀ x ∈ t, x ∈ l) →
        Goes c root (Visited c o root) pid (d + 1) ts (parseBranches c r n true i t)
          (List.Forall₂ (VariantDone c o root C n) t) := by
      intro t
      induction t with
      | nil => intro i _; unfold parseBranches; exact Goes.pure .nil
      | cons x t ih =>
        intro i ht
        unfold parseBranches
        obtain ⟨h1, _, _, _, h2⟩ := hp x (ht x (by simp))
        refine Goes.bind ?_ (goes_variant hr hnode hts hoff ho hl (ht x (by simp)) h1 h2) ?_
        · exact fun _ => Keeps.bind (keeps_parseBranches hr _ _ _ _) fun _ => Keeps.pure _
        intro g hg
        refine Goes.bind (fun _ => Keeps.pure _) (ih (i + 1) fun y hy => ht y (by simp [hy])) ?_
        intro rest hrest
        exact Goes.pure (.cons hg hrest)
    exact key l 0 fun _ h => h
  · refine Goes.bind (fun _ => keeps_oneOfValidators _ _) (goes_flattenFree l fun x hx => ?_) ?_
    · obtain ⟨h1, _, _, _, h2⟩ := hp x hx
      have hsup := (FreeOk.alternative h1 h2).1
      exact h1.copied (fun p hp => (hsup.object.names p hp).1) fun p hp => (hsup.object.patterns p hp).names.1
    · rintro _ rfl
      rw [oneOfValidators_asMerged l 0 fun x hx => ⟨(hp x hx).1, (hp x hx).2.1, (hp x hx).2.2.1⟩]
      exact goes_oneOfValidators hin hl hnames (fun x hx => (hp x hx).2.2.2.1) _ [] rfl

/-! ## Conditions -/

theorem goes_ifBody (hr : KeepsRec c r) (hnode : NodeGoes c root (Visited c o root) pid C r) (hts : PlainTokens ts)
    (hin : Inside root d ts n) (hn : Concurs c o ty b [] (withoutIf n)) (hd : (d : Int) + 2 * b + 1 ≤ c.maxParseDepth)
    {kw : String} (hkw : kw ∈ ["then", "else"]) {body : Option SchemaNode} (hy : ∀ y, body = some y → Concurs c o ty b [] y) :
    Goes c root (Visited c o root) pid (d + 1) ts (parseIfBody c r ("/" ++ kw) (withoutIf n) body)
      (fun g => (body = none → g = none) ∧ ∀ y, body = some y → ∃ t, g = some t ∧
        BranchC c root (Visited c o root) C (withoutIf n) y t) := by
  have hoff : Off root (ts ++ [kw]) := .intro kw [] hin (by rcases List.mem_cons.1 hkw with rfl | h
                                                            · decide
                                                            · cases List.mem_singleton.1 h; decide)
  have hplain : PlainName kw := by
    rcases List.mem_cons.1 hkw with rfl | h
    · unfold PlainName; decide
    · cases List.mem_singleton.1 h; unfold PlainName; decide
  cases body with
  | none => exact Goes.pure ⟨fun _ => rfl, nofun⟩
  | some y =>
    have hyc := hy y rfl
    have hshallow : ((d + 1 : Nat) : Int) + 1 ≤ c.maxParseDepth := by
      obtain ⟨b', rfl⟩ := hn.pos
      push_cast at hd ⊢
      omega
    unfold parseIfBody
    have hend : ∀ g : Gen × Option Err, Keeps c (match g.2 with
        | some e => do
          warnField ("/" ++ kw) e
          pure none
        | none => pure (some g.1) : P (Option Gen)) := by
      intro g
      split
      · exact Keeps.bind (keeps_warnField _ _ _) fun _ => Keeps.pure _
      · exact Keeps.pure _
    refine Goes.bind (fun m => Keeps.bind (keeps_parseInScope hr _ _ _) fun g => hend g)
      (goes_merge (l := [withoutIf n]) (fun z hz => by rw [List.mem_singleton.1 hz]; exact hn)
        (hyc.combines (A := Concurs c o ty b []))) ?_
    rintro m ⟨hm, hnone⟩
    have hnone := hnone hshallow
    have hany : m.anyOf = none := hm.anyOf.trans hyc.mergeable.anyOf
    have hvis : Visited c o root (d + 1) (ts ++ [kw]) m := by
      refine .inr (.inl ⟨.inl hoff, ty, b, [], hm.combines, hm.defs, hm.definitions, ?_⟩)
      unfold combinedDepth
      rw [hnone, hany]
      simp only [Option.isSome_none, Bool.false_eq_true, if_false]
      push_cast
      omega
    refine Goes.bind (Q := Done C m) (fun g => hend g) ?_ ?_
    · refine goes_inScope hr [kw] (pointerText_one ts kw) (goes_offSources hoff _ ?_)
        (hnode _ _ m hvis (plainTokens_append hts (plainTokens_one hplain)))
      intro z hz
      rw [List.mem_singleton.1 hz]; exact .inl hyc.mergeable.ref
    · rintro ⟨g, e⟩ ⟨h1, h2⟩
      simp only at h1
      subst h1
      refine Goes.pure ⟨nofun, ?_⟩
      intro y' hy'
      cases hy'
      refine ⟨g, rfl, d + 1, _, m, hvis, ?_, h2⟩
      intro v hv
      exact ⟨hm.members _ (List.mem_singleton.2 rfl) v hv, hm.last v hv⟩

theorem goes_if (hr : KeepsRec c r) (hnode : NodeGoes c root (Visited c o root) pid C r) (hts : PlainTokens ts)
    (hschema : ∀ m, Supported c o root m → ReachedParts (Visited c o root) d ts m →
      Goes c root (Visited c o root) pid (d + 1) ts (r.schema m) (fun p => p.2 = none → CStep c pid C m p.1))
    (hs : Supported c o root (withoutIf n)) (hparts : ReachedParts (Visited c o root) d ts n)
    (hin : Inside root d ts n) (hc : Condition c o root ty b n) (hd : (d : Int) + 2 * b + 1 ≤ c.maxParseDepth) :
    Goes c root (Visited c o root) pid (d + 1) ts (parseIf c r n)
      (fun p => p.2 = none → CNode c root (Visited c o root) pid C n p.1) := by
  cases hx : n.ifN with
  | none => exact (hc.has hx).elim
  | some x =>
    have hmi : n.mergedIf = [] := hc.own.mergeable.covered.mergedIf
    have hw : ({ n with ifN := none, thenN := none, elseN := none, mergedIf := [] } : SchemaNode) = withoutIf n := by
      unfold withoutIf; rw [hmi]
    have hks : ∀ (n : SchemaNode) (l : List (IfStmt SchemaNode)) (i : Nat), Keeps c (compileIfs c r n i l) := fun n l i =>
      keeps_compileIfs hr n l i
    have hk2 : ∀ (g : Gen × Option Err) (p : String), Keeps c (match g.2 with
        | some e => nullErr e
        | none => if [newIfStatement n p].length = 0 then okGen g.1 else do
          let cs ← compileIfs c r (withoutIf n) 0 [newIfStatement n p]
          if cs.length = 0 then do
            addErrorSub "/if/config_compile_error" "no valid if statements could be compiled"
            okGen g.1
          else okGen (.constrained g.1 [.ifs cs]) : PR) := by
      intro g p
      split
      · exact keeps_nullErr _
      · split
        · exact keeps_okGen _
        · refine Keeps.bind (hks _ _ _) fun cs => ?_
          split
          · exact Keeps.bind (keeps_addErrorSub _ _ _) fun _ => keeps_okGen _
          · exact keeps_okGen _
    have heq : parseIf c r n = (do
        let path ← gets (fun s => s.path)
        let g ← r.schema (withoutIf n)
        match g.2 with
        | some e => nullErr e
        | none => if [newIfStatement n path].length = 0 then okGen g.1 else do
          let cs ← compileIfs c r (withoutIf n) 0 [newIfStatement n path]
          if cs.length = 0 then do
            addErrorSub "/if/config_compile_error" "no valid if statements could be compiled"
            okGen g.1
          else okGen (.constrained g.1 [.ifs cs])) := by
      unfold parseIf
      rw [hw]
      simp only [hx, hmi, Option.isSome_some, if_true, List.nil_append]
      rfl
    rw [heq]
    refine Goes.bind (Q := fun p => p = pointerText ts) (fun p => Keeps.bind (hr.schema _) fun g => hk2 g p) ?_ ?_
    · intro s a s' hg h _
      cases h
      exact ⟨hg, hg.path⟩
    rintro _ rfl
    refine Goes.bind (fun g => hk2 g _) (hschema _ hs hparts.withoutIf) ?_
    rintro ⟨g, e⟩ hg
    cases e with
    | some e => exact Goes.pure fun h => by cases h
    | none =>
      have hg := hg rfl
      simp only [List.length_singleton, Nat.one_ne_zero, if_false]
      refine Goes.bind (Q := fun cs => ∃ ic, cs = [ic] ∧ Decides c root x ic.cond ∧
        ((n.thenN = none → ic.thenGen = none) ∧ ∀ y, n.thenN = some y → ∃ t, ic.thenGen = some t ∧
          BranchC c root (Visited c o root) C (withoutIf n) y t) ∧
        ((n.elseN = none → ic.elseGen = none) ∧ ∀ y, n.elseN = some y → ∃ t, ic.elseGen = some t ∧
          BranchC c root (Visited c o root) C (withoutIf n) y t)) ?_ ?_ ?_
      · intro cs
        split
        · exact Keeps.bind (keeps_addErrorSub _ _ _) fun _ => keeps_okGen _
        · exact keeps_okGen _
      · unfold compileIfs
        refine Goes.bind (Q := fun y => ∀ ic, y = .ok ic → Decides c root x ic.cond ∧
          ((n.thenN = none → ic.thenGen = none) ∧ ∀ y, n.thenN = some y → ∃ t, ic.thenGen = some t ∧
            BranchC c root (Visited c o root) C (withoutIf n) y t) ∧
          ((n.elseN = none → ic.elseGen = none) ∧ ∀ y, n.elseN = some y → ∃ t, ic.elseGen = some t ∧
            BranchC c root (Visited c o root) C (withoutIf n) y t)) ?_ ?_ ?_
        · intro y
          split
          · exact Keeps.bind (keeps_addErrorSub _ _ _) fun _ => hks _ _ _
          · exact Keeps.bind (hks _ _ _) fun _ => Keeps.pure _
        · unfold compileIf newIfStatement
          simp only [hx]
          split
          · exact Goes.pure nofun
          refine Goes.bind (Q := fun p => p = pointerText ts) ?_ ?_ ?_
          · intro p
            refine Keeps.bind (keeps_validatorFor _ _ _) fun a => ?_
            split
            · exact Keeps.pure _
            · exact Keeps.bind (keeps_parseIfBody hr _ _ _) fun _ => Keeps.bind (keeps_parseIfBody hr _ _ _) fun _ => Keeps.pure _
          · intro s a s' hg h _
            cases h
            exact ⟨hg, hg.path⟩
          rintro _ rfl
          have hf : s!"{pointerText ts}//if/{(0 : Nat)}" = s!"{pointerText ts}//if/0" := by
            apply String.toList_inj.1
            simp [ToString.toString, String.toList_append]
          rw [hf]
          refine Goes.bind ?_ (goes_asked (.condition hin hx) hc.names (hc.condition x hx)) ?_
          · intro a
            split
            · exact Keeps.pure _
            · exact Keeps.bind (keeps_parseIfBody hr _ _ _) fun _ => Keeps.bind (keeps_parseIfBody hr _ _ _) fun _ => Keeps.pure _
          intro a ha
          cases a with
          | none => exact Goes.pure nofun
          | some f =>
            refine Goes.bind (fun _ => Keeps.bind (keeps_parseIfBody hr _ _ _) fun _ => Keeps.pure _)
              (goes_ifBody (kw := "then") hr hnode hts hin hc.own hd (by decide) hc.thenN) ?_
            intro t ht
            refine Goes.bind (fun _ => Keeps.pure _)
              (goes_ifBody (kw := "else") hr hnode hts hin hc.own hd (by decide) hc.elseN) ?_
            intro e he
            refine Goes.pure ?_
            intro ic hic
            cases hic
            exact ⟨ha f rfl, ht, he⟩
        · intro y hy
          cases y with
          | error e => exact goes_error fun _ => hks _ _ _
          | ok ic =>
            refine Goes.bind (Q := fun l => l = []) (fun _ => Keeps.pure _) (Goes.pure rfl) ?_
            rintro _ rfl
            exact Goes.pure ⟨ic, rfl, hy ic rfl⟩
      · rintro _ ⟨ic, rfl, h1, h2, h3⟩
        exact Goes.pure fun _ => .conditional x g ic hx hg h1 h2.2 h3.2 h2.1 h3.1

/-! ## Exclusions -/

theorem restProperties_mem {p : Option (List (String × SchemaNode))} {l : List String} {q : List (String × SchemaNode)}
    (h : restProperties p l = some q) : ∃ p', p = some p' ∧ q = p'.filter (fun e => decide (e.1 ∉ l)) := by
  unfold restProperties at h
  cases p with
  | none => cases h
  | some p' =>
    refine ⟨p', rfl, ?_⟩
    simp only [Option.getD_some] at h
    split at h
    · cases h
    · rename_i hf
      rw [hf]
      exact (Option.some.inj h).symm

theorem keysKV_filter {β : Type} {p : List (String × β)} {f : String × β → Bool} : (keysKV (p.filter f)).Sublist (keysKV p) :=
  List.filter_sublist.map _

/-- Fewer properties. -/
theorem Concurs.rest {l : List String} {n : SchemaNode} (h : Concurs c o ty b path n) :
    Concurs c o ty b path { n with properties := restProperties n.properties l } := by
  obtain ⟨own, someMember, allOf, properties, items⟩ := h
  have hcov := own.covered
  refine .intro ?_ someMember allOf ?_ items
  · exact
      { covered := ⟨hcov.1, hcov.2, hcov.3, hcov.4, hcov.5, hcov.6, hcov.7, hcov.8, hcov.9, hcov.10, hcov.11, hcov.12, hcov.13⟩
        ref := own.ref
        anyOf := own.anyOf
        definitions := own.definitions
        defs := own.defs
        unlisted := own.unlisted
        listed := fun hl => by
          have ho := own.listed hl
          exact ⟨ho.1, ho.2, ho.3, ho.4, ho.5, ho.6, ho.7, ho.8, ho.9, ho.10, ho.11, by
            show restProperties n.properties l = none
            rw [ho.properties]; rfl, ho.13, ho.14, ho.15⟩
        listedValues := own.listedValues
        someValue := own.someValue
        oneList := own.oneList
        additionalProperties := own.additionalProperties
        patternProperties := own.patternProperties
        prefixItems := own.prefixItems
        contains := own.contains
        minContains := own.minContains
        multipleOf := own.multipleOf
        known := own.known
        type := own.type
        items := own.items
        names := fun q hq => by
          obtain ⟨p, hp, rfl⟩ := restProperties_mem hq
          obtain ⟨h1, h2⟩ := own.names p hp
          exact ⟨h1.sublist keysKV_filter, fun k hk => h2 k (keysKV_filter.subset hk)⟩
        requiredNames := own.requiredNames
        minProperties := own.minProperties
        maxProperties := own.maxProperties
        minItems := own.minItems
        maxItems := own.maxItems
        string := ⟨own.string.1, own.string.2⟩
        arithmetic := own.arithmetic
        magnitude := own.magnitude
        doubles := own.doubles }
  · intro q k x hq hx
    obtain ⟨p, hp, rfl⟩ := restProperties_mem hq
    exact properties p k x hp (List.mem_filter.1 hx).1

theorem HasType.of_valid {pat : String → String → Prop} {m : SchemaNode} {v : JVal} {t : String} (h : Valid pat root m v)
    (ht : m.type = some { single := t }) : HasType t v := by
  cases h with
  | intro _ _ _ _ _ _ localOk => exact localOk.type _ ht

/-- A schema with `not` beside other keywords. -/
theorem goes_not (hr : KeepsRec c r) (hts : PlainTokens ts)
    (hinner : ∀ m, Supported c o root m → ((d + 1 : Nat) : Int) < c.maxParseDepth → ReachedParts (Visited c o root) (d + 1) ts m →
      GoesBut c root (Visited c o root) pid (d + 1) ts (r.node m) (Done C m))
    (hin : Inside root d ts n) (hc : Exclusion c o ty b n) (hd : (d : Int) + 2 * b + 1 ≤ c.maxParseDepth) :
    GoesBut c root (Visited c o root) pid (d + 1) ts (parseNot c r n)
      (fun p => p.2 = none → CNode c root (Visited c o root) pid C n p.1) := by
  cases hx : n.not with
  | none => exact (hc.has hx).elim
  | some x =>
    have hneg := hc.negated x hx
    have hm := hc.own.mergeable
    have hcov := hm.covered
    have hmn : n.mergedNot = [] := hcov.mergedNot
    intro s a s' hg h he
    have hev := keeps_parseNot hr n s a s' h
    unfold parseNot collectNots at h
    rw [hmn, hx] at h
    simp only [Option.toList_some, List.append_nil] at h
    obtain ⟨parts, s1, h1, h⟩ := bind_ok.1 h
    obtain ⟨rfl, y, rfl, hbare, hsame, hmore⟩ := partition_one hneg h1
    simp only [List.length_nil, lt_irrefl, if_false, List.length_singleton, Nat.one_ne_zero] at h
    obtain ⟨base, s2, h2, h⟩ := bind_ok.1 h
    obtain ⟨rfl, rfl⟩ := pure_ok.1 h2
    obtain ⟨flat, s3, h3, h⟩ := bind_ok.1 h
    obtain ⟨e3, rfl⟩ := merge_lone (o := o) (t := ty []) (n := { n with not := none, mergedNot := [] })
      (by
        have : ({ n with not := none, mergedNot := [], oneOf := none, defs := none, definitions := none } : SchemaNode) =
            { n with not := none, defs := none, definitions := none } := by
          have ho : n.oneOf = none := hcov.oneOf
          cases n; simp_all
        have hm' := hm
        rw [← this] at hm'
        exact hm')
      ⟨hc.written.1, hc.written.2, hc.written.3, hc.written.4, hc.written.5, hc.written.6⟩
      (by rw [show n.oneOf = none from hcov.oneOf]; nofun) h3
    have e4 : flat = { n with not := none, defs := none, definitions := none } := by
      rw [e3]
      cases n; simp_all
    subst e4
    clear e3
    obtain ⟨res, s4, h4, h⟩ := bind_ok.1 h
    obtain ⟨g, s5, h5, h⟩ := bind_ok.1 h
    have e5 : s5.errors = [] ∧ s' = s5 ∧ (a.2 = none → g.2 = none ∧ a.1 = .constrained g.1 [compileColl c res.2]) := by
      cases hg2 : g.2 with
      | some e =>
        rw [hg2] at h
        obtain ⟨rfl, rfl⟩ := pure_ok.1 h
        exact ⟨he, rfl, nofun⟩
      | none =>
        rw [hg2] at h
        obtain ⟨rfl, rfl⟩ := pure_ok.1 h
        exact ⟨he, rfl, fun _ => ⟨rfl, rfl⟩⟩
    obtain ⟨e5, rfl, ha⟩ := e5
    have e4 := (hr.node res.1 s4 g s' h5).noErrors e5
    have hq : s4.errors.length = s3.errors.length := by
      have := (keeps_applyNots (c := c) _ _ _ _).grow h4
      rw [e4] at this ⊢
      simp only [List.length_nil] at this ⊢
      omega
    obtain ⟨-, -, hcov1, hcov2⟩ := applyNots_covers _ _ _ _ _ _ h4 hq
    unfold applyNots at h4
    obtain ⟨r1, s6, h6, h4⟩ := bind_ok.1 h4
    unfold applyNots at h4
    obtain ⟨rfl, rfl⟩ := pure_ok.1 h4
    have hplainly : Plainly { n with not := none, defs := none, definitions := none } (ty []).type := by
      refine ⟨fun h => absurd (h ▸ hm.known) (by decide), hc.type, hc.exclusive.1, hc.exclusive.2, hm.multipleOf, hc.unlisted.1, hc.unlisted.2,
        hm.prefixItems, hcov.additionalItems, hcov.unevaluatedItems, hm.contains, hm.minContains, hm.additionalProperties, hc.written.allOf, rfl, hmn, ?_⟩
      cases hp : n.properties with
      | none => exact List.nodup_nil
      | some p => exact (hm.names p hp).1
    have hforbids := (notMerge_forbids (m := r1.1) (cc := r1.2) h6).merged
    obtain ⟨em, rfl⟩ := notMerge_bare (m := r1.1) (cc := r1.2) hplainly hbare h6 hq
    generalize hl : nonConflicting (n.required.getD []) (y.required.getD []) = l at em
    have hcon : Concurs c o ty b [] r1.1 := by rw [em]; exact hc.own.rest
    have hdepth : ((d + 1 : Nat) : Int) + combinedDepth b r1.1 ≤ c.maxParseDepth := by
      unfold combinedDepth
      rw [show r1.1.anyOf = none from hcon.mergeable.anyOf, show r1.1.allOf = none by rw [em]; exact hc.written.allOf]
      simp only [Option.isSome_none, Bool.false_eq_true, if_false]
      push_cast
      omega
    have hvis : Visited c o root (d + 1) (ts ++ ["else"]) r1.1 :=
      .inr (.inl ⟨.inl (.intro "else" [] hin (by decide)), ty, b, [], hcon.combines, hcon.mergeable.defs, hcon.mergeable.definitions, hdepth⟩)
    have hsup : Supported c o root r1.1 := (hcon.combines (A := fun _ => True)).supported (by rw [em]; exact hc.written.allOf)
      hcon.mergeable.anyOf (by rw [hcon.mergeable.definitions]; nofun) (by rw [hcon.mergeable.defs]; nofun)
    have hparts : ReachedParts (Visited c o root) (d + 1) ts r1.1 := by
      obtain ⟨b', rfl⟩ := hcon.pos
      have hcon' := hcon
      generalize hgen : r1.1 = z at hcon'
      obtain ⟨_, _, _, hpr, hit⟩ := hcon'
      subst hgen
      exact
        { properties := fun {p k m} hp hl' => by
            refine off_below (.inr ⟨d + 1, ?_⟩) hdepth (hpr p k m hp (lookupKV_mem hl'))
            rw [em] at hp
            obtain ⟨p', hp', rfl⟩ := restProperties_mem hp
            refine .named hin (.properties p' hp' (lookupKV_of_mem (hm.names p' hp').1 (List.mem_filter.1 (lookupKV_mem hl')).1))
          patternProperties := fun {p k m} hp hl => by rw [hcon.mergeable.patternProperties] at hp; cases hp
          additionalProperties := fun {x m} hx hf hm => by rw [hcon.mergeable.additionalProperties] at hx; cases hx
          items := fun {x m} hx hf hm => by
            refine off_below (.inr ⟨d + 1, ?_⟩) hdepth (hit x m hx hm)
            rw [em] at hx
            exact .items hin hx hf hm
          prefixItems := fun {l m i} hx hm => by rw [hcon.mergeable.prefixItems] at hx; cases hx
          contains := fun {m} hx => by rw [hcon.mergeable.contains] at hx; cases hx }
    obtain ⟨hg5, hdone⟩ := hinner r1.1 hsup (shallow_of hcon.pos hdepth) hparts s6 g s' hg h5 e5
    refine ⟨hg5, fun ha2 => ?_⟩
    obtain ⟨hg2, ha1⟩ := ha ha2
    rw [ha1]
    obtain ⟨fns, hfns, -, -, -, hmust⟩ := compileColl_eq c (({} : ConstraintColl).merge r1.2)
    rw [hfns]
    refine .excluded (d + 1) _ r1.1 g.1 fns (by rw [hx]; nofun) hvis ?_ hdone.2 ?_
    rotate_left
    · intro x' hx'
      rw [hx] at hx'
      cases hx'
      refine ⟨?_, fun v hv hs => spared_passes hneg hbare hmore hfns hforbids hv hs⟩
      rw [em, ← hl, hmore.required]
      rfl
    intro v hv hpass
    have htype : HasType (ty []).type v := HasType.of_valid hv (by rw [em]; exact hc.type)
    have hget : ∀ {α : Type} (x : Option α) (d : α), getZeroIfNil x d = x.getD d := by
      intro α x d
      cases x <;> rfl
    have hcov1 := hcov1 y (by simp)
    have hcov2 := hcov2 hc.unlisted.1 hc.unlisted.2 (fun z hz => by
      rw [List.mem_singleton.1 hz]
      unfold effNotMultipleOf nodeTypeContains
      rw [hbare.type, hbare.multipleOf]
      simp [getZeroIfNil]) y (by simp)
    rw [hget] at hcov1
    have hinv : Invalid (patternMeaning c) root x v := negated_invalid hneg hsame hfns hcov1 hcov2 hpass htype
    rw [em] at hv
    refine valid_rest (l := l) hm.additionalProperties (fun x' hx' => ?_) ?_ hv
    · rw [hx] at hx'
      cases hx'
      exact hinv
    · rintro k hk m rfl hkm
      rw [← hl, mem_nonConflicting] at hk
      have hmem := hcov1.required k (by rw [hget]; exact hk.1) hk.2
      have := hpass _ (hmust (List.ne_nil_of_mem hmem))
      unfold mustNotHaveFn at this
      have h0 := List.all_eq_true.1 this k hmem
      rw [Option.isNone_iff_eq_none, lookupKV_none] at h0
      exact h0 hkm

/-- A schema at a visited place. -/
theorem goes_visited (hall : ∀ d ts m, Inside root d ts m → PlaceOk c o root d ts m) (hr : KeepsRec c r)
    (hnode : NodeGoes c root (Visited c o root) pid C r) (hts : PlainTokens ts)
    (hschema : ∀ m, Supported c o root m → ReachedParts (Visited c o root) d ts m →
      Goes c root (Visited c o root) pid (d + 1) ts (r.schema m) (fun p => p.2 = none → CStep c pid C m p.1))
    (hinner : ∀ m, Supported c o root m → ((d + 1 : Nat) : Int) < c.maxParseDepth → ReachedParts (Visited c o root) (d + 1) ts m →
      GoesBut c root (Visited c o root) pid (d + 1) ts (r.node m) (Done C m))
    (hin : Visited c o root d ts n) :
    GoesBut c root (Visited c o root) pid (d + 1) ts (parseSchemaStep c r n)
      (fun p => p.2 = none → CNode c root (Visited c o root) pid C n p.1) := by
  have hreg := visited_region hall
  have hparts := hreg.parts hin
  have hcond := hreg.conditional hin
  by_cases hp : Undivided n
  · have hs := hreg.supported hin hp
    exact ((goes_schema hr hnode hts hparts hs).imp fun p h he => .plain _ hp (h he)).but
  · have key : n.ref = none ∧ (∀ l, n.allOf = some l → Goes c root (Visited c o root) pid (d + 1) ts (parseAllOf c r n l)
          (fun p => p.2 = none → CNode c root (Visited c o root) pid C n p.1)) ∧
        (n.allOf = none → n.oneOf ≠ none ∨ n.anyOf ≠ none → Goes c root (Visited c o root) pid (d + 1) ts (parseCombination c r n)
          (fun p => p.2 = none → CNode c root (Visited c o root) pid C n p.1)) ∧
        (n.ifN ≠ none → n.not = none ∧ n.mergedNot = [] ∧ Goes c root (Visited c o root) pid (d + 1) ts (parseIf c r n)
          (fun p => p.2 = none → CNode c root (Visited c o root) pid C n p.1)) ∧
        (n.not ≠ none → GoesBut c root (Visited c o root) pid (d + 1) ts (parseNot c r n)
          (fun p => p.2 = none → CNode c root (Visited c o root) pid C n p.1)) := by
      have hfree : ∀ {l : List SchemaNode}, (∀ us, Off root (ts ++ "anyOf" :: us)) → OnlyAnyOf n → n.anyOf = some l → l ≠ [] →
          (∀ x ∈ l, ∃ t, StandsFor c root ts x t ∧ (x = t ∨ ¬ Off root ts) ∧ KeptByMerge t ∧
            ∀ e us m, Inside t e us m → FreeOk c o root (d + 1 + e) m) → n.ref = none ∧
          (∀ l, n.allOf = some l → Goes c root (Visited c o root) pid (d + 1) ts (parseAllOf c r n l)
            (fun p => p.2 = none → CNode c root (Visited c o root) pid C n p.1)) ∧
          (n.allOf = none → n.oneOf ≠ none ∨ n.anyOf ≠ none → Goes c root (Visited c o root) pid (d + 1) ts (parseCombination c r n)
            (fun p => p.2 = none → CNode c root (Visited c o root) pid C n p.1)) ∧
          (n.ifN ≠ none → n.not = none ∧ n.mergedNot = [] ∧ Goes c root (Visited c o root) pid (d + 1) ts (parseIf c r n)
            (fun p => p.2 = none → CNode c root (Visited c o root) pid C n p.1)) ∧
          (n.not ≠ none → GoesBut c root (Visited c o root) pid (d + 1) ts (parseNot c r n)
            (fun p => p.2 = none → CNode c root (Visited c o root) pid C n p.1)) := by
        intro l hoff ho hl hne hp
        have hcop := Copied.onlyAnyOf ho (by rw [hl]; intro h; exact hne (Option.some.inj h))
        refine ⟨hcop.ref, fun l hl => ?_, fun _ _ => goes_union hr hnode hts hoff ho hl hp, fun h => ?_, fun h => ?_⟩
        · rw [hcop.allOf] at hl; cases hl
        · exact (h hcop.ifN).elim
        · exact (h hcop.not).elim
      rcases hin with hin | ⟨hoff, ty, b, path, hc, _, _, hd⟩ | ⟨hoff, hfp⟩
      rotate_left 2
      · cases hfp.ok with
        | plain hs _ => exact (hp hs.undivided).elim
        | alternatives ho hl hne _ hk hparts =>
          exact hfree (fun us => hoff.append _) ho hl hne fun x hx => ⟨x, .own, .inl rfl, hk x hx, hparts x hx⟩
      · have hno : ¬ Off root ts := fun h => h.not_inside hin
        cases hall d ts n hin with
        | plain hs _ => exact (hp hs.undivided).elim
        | union l ho hl hne _ halt _ _ =>
          exact hfree (fun us => .intro "anyOf" us hin (by decide)) ho hl hne fun x hx =>
            (halt x hx).imp fun t ⟨h1, h2, h3⟩ => ⟨h1, .inr hno, h2, h3⟩
        | variants l ho hl hne _ hnames halt _ _ =>
          have hcop := Copied.onlyOneOf ho (by rw [hl]; intro h; exact hne (Option.some.inj h))
          refine ⟨hcop.ref, fun l hl => ?_, fun _ _ => goes_variants hr hnode hts hin ho hl hne hnames halt, fun h => ?_, fun h => ?_⟩
          · rw [hcop.allOf] at hl; cases hl
          · exact (h hcop.ifN).elim
          · exact (h hcop.not).elim
        | choice ty b hc hd _ _ =>
          refine ⟨hc.own.mergeable.ref, fun l hl => ?_, fun _ _ => goes_choice hr hnode hts hin hc hd, fun h => ?_, fun h => ?_⟩
          · rw [hc.written.allOf] at hl; cases hl
          · exact (h hc.own.mergeable.covered.ifN).elim
          · exact (h hc.own.mergeable.covered.not).elim
        | exclusion ty b hc hd _ _ =>
          refine ⟨hc.own.mergeable.ref, fun l hl => ?_, fun _ h => ?_, fun h => ?_, fun h => goes_not hr hts hinner hin hc hd⟩
          · rw [hc.written.allOf] at hl; cases hl
          · rcases h with h | h
            · exact (h hc.own.mergeable.covered.oneOf).elim
            · exact (h hc.own.mergeable.anyOf).elim
          · exact (h hc.own.mergeable.covered.ifN).elim
        | condition ty b hc hd =>
          refine ⟨hc.own.mergeable.ref, fun l hl => ?_, fun _ h => ?_, fun h => ⟨hc.own.mergeable.covered.not,
            hc.own.mergeable.covered.mergedNot, goes_if hr hnode hts hschema (hcond h) hparts hin hc hd⟩, fun h => (h hc.own.mergeable.covered.not).elim⟩
          · rw [hc.allOf] at hl; cases hl
          · rcases h with h | h
            · exact (h hc.own.mergeable.covered.oneOf).elim
            · exact (h hc.own.mergeable.anyOf).elim
        | combined ty b hc hd _ _ =>
          have href : n.ref = none := hc.own.mergeable.ref
          refine ⟨href, fun l hl => ?_, fun hl hl' => ?_, fun h => (h hc.covered.ifN).elim, fun h => (h hc.covered.not).elim⟩
          · exact goes_allOf hr hnode hts (.intro "allOf" [] hin (by decide)) hc.own.pos href hd hl
              (fun x hx => (hc.allOf l x hl hx).ref)
              (fun k => goes_follow hno (fun x hx => hc.allOf l x hl hx) (.inl (hc.rest (by rw [hl]; nofun))))
              fun k s m s' h he hany hown => merge_gathers (fun x hx => (hc.allOf l x hl hx).concurs (hown x hx).1)
                (hc.rest (by rw [hl]; nofun)) (own_allOf hown) hany h he
          · have hcc := hc.combines hl
            obtain ⟨l, hl'⟩ := Option.ne_none_iff_exists'.1 (hl'.resolve_left fun h => h hc.covered.oneOf)
            exact goes_combination hr hnode hts (fun us => .intro "anyOf" us hin (by decide))
              ⟨hcc.own, hcc.someAlternative, fun l x hl hx => .inr ⟨rfl, hno, hcc.anyOf l x hl hx⟩⟩ hd hl'
      · refine ⟨hc.mergeable.ref, fun l hl => ?_, fun hl hl' => ?_, fun h => (h hc.covered.ifN).elim, fun h => (h hc.covered.not).elim⟩
        · exact goes_allOf (n := n) hr hnode hts (Loose.off hoff (by decide) []) hc.pos hc.mergeable.ref hd hl
            (fun x hx => .inl (hc.members hl x hx).mergeable.ref)
            (fun k => goes_merge (hc.members hl) hc.noAllOf)
            fun k s m s' h he hany hown => merge_gathers (hc.members hl) hc.noAllOf (own_allOf hown) hany h he
        · obtain ⟨l, hl'⟩ := Option.ne_none_iff_exists'.1 (hl'.resolve_left fun h => h hc.covered.oneOf)
          exact goes_combination hr hnode hts (fun us => Loose.off hoff (by decide) us)
            ⟨hc.own, hc.someAlternative, fun l x hl hx => .inl (hc.anyOf l x hl hx)⟩ hd hl'
    obtain ⟨href, k1, k2, k3, k7⟩ := key
    unfold parseSchemaStep
    cases checkUnsupported n with
    | some e => exact (Goes.pure fun h => by cases h).but
    | none =>
      simp only [href]
      cases hl : n.allOf with
      | some l => exact (k1 l hl).but
      | none =>
        simp only
        by_cases hcomb : n.oneOf ≠ none ∨ n.anyOf ≠ none
        · rw [if_pos (by simpa [Option.isSome_iff_ne_none] using hcomb)]
          exact (k2 hl hcomb).but
        · rw [if_neg (by simpa [Option.isSome_iff_ne_none] using hcomb)]
          simp only [ne_eq, not_or, not_not] at hcomb
          by_cases hnot : n.not ≠ none
          · rw [if_pos (.inl (Option.isSome_iff_ne_none.2 hnot))]
            exact k7 hnot
          simp only [ne_eq, not_not] at hnot
          have hif : n.ifN ≠ none := fun h => hp ⟨hl, hcomb.2, hcomb.1, h, hnot⟩
          obtain ⟨k4, k5, k6⟩ := k3 hif
          rw [k4, k5, if_neg (by simp), if_pos (.inl (Option.isSome_iff_ne_none.2 hif))]
          exact k6.but

/-- The parser compiles every supported schema. -/
theorem goes_parseRec (hall : ∀ d ts m, Inside root d ts m → PlaceOk c o root d ts m) (k : Nat) :
    NodeGoes c root (Visited c o root) pid (CompiledK c root (Visited c o root) pid k) (parseRec c k) := by
  have hreg := visited_region hall
  induction k using Nat.strong_induction_on with
  | _ k ih =>
    intro d ts n hin hts
    match k with
    | 0 => intro s a s' _ h _; simp [parseRec] at h
    | 1 =>
      intro s a s' hg h he
      refine goes_nodeStep (schema := (parseRec c 0).schema) (keeps_parseRec 0).schema hts hin (hreg.own hin)
        (hreg.shallow hin) ?_ s a s' hg h he
      intro s a s' _ h _
      simp [parseRec] at h
    | k + 2 =>
      refine goes_nodeStep (schema := (parseRec c (k + 1)).schema) (keeps_parseRec (k + 1)).schema hts hin
        (hreg.own hin) (hreg.shallow hin) ?_
      refine (goes_visited hall (keeps_parseRec k) (ih k (by omega)) hts ?_ ?_ hin).imp ?_
      · intro m hs hparts
        match k with
        | 0 => intro s a s' _ h _; simp [parseRec] at h
        | k + 1 =>
          exact (goes_schema (keeps_parseRec k) (ih k (by omega)) hts hparts hs).imp fun p h he =>
            (h he).mono fun n g => CompiledK.succ k n g
      · intro m hs hd hparts
        match k with
        | 0 => intro s a s' _ h _; simp [parseRec] at h
        | 1 =>
          refine goes_nodeBut (schema := (parseRec c 0).schema) (keeps_parseRec 0).schema ⟨hs.covered.constraints, hs.covered.id⟩ hd ?_
          intro s a s' _ h _
          simp [parseRec] at h
        | k + 2 =>
          refine goes_nodeBut (schema := (parseRec c (k + 1)).schema) (keeps_parseRec (k + 1)).schema
            ⟨hs.covered.constraints, hs.covered.id⟩ hd ?_
          refine ((goes_schema (keeps_parseRec k) (ih k (by omega)) hts hparts hs).imp fun p h he => ?_).but
          exact CompiledK.succ (k + 1) m p.1 (.plain _ hs.undivided (h he))
      intro p hp he
      exact CompiledK.succ (k + 1) n p.1 (hp he)

theorem PlaceOk.defs {d : Nat} {ts : List String} {n : SchemaNode} (h : PlaceOk c o root d ts n) :
    ∀ p, n.defs = some p → (keysKV p).Nodup ∧ ∀ k ∈ keysKV p, PlainName k := by
  cases h with
  | plain hs _ => exact hs.defs
  | combined _ _ _ _ _ h => exact h
  | choice _ _ _ _ _ h => exact h
  | union _ _ _ _ _ _ _ h => exact h
  | variants _ _ _ _ _ _ _ _ h => exact h
  | exclusion _ _ _ _ _ h => exact h
  | condition _ _ hc _ =>
    have : n.defs = none := hc.own.mergeable.defs
    rw [this]; nofun

theorem PlaceOk.definitions {d : Nat} {ts : List String} {n : SchemaNode} (h : PlaceOk c o root d ts n) :
    ∀ p, n.definitions = some p → (keysKV p).Nodup ∧ ∀ k ∈ keysKV p, PlainName k := by
  cases h with
  | plain hs _ => exact hs.definitions
  | combined _ _ _ _ h _ => exact h
  | choice _ _ _ _ h _ => exact h
  | union _ _ _ _ _ _ h _ => exact h
  | variants _ _ _ _ _ _ _ h _ => exact h
  | exclusion _ _ _ _ h _ => exact h
  | condition _ _ hc _ =>
    have : n.definitions = none := hc.own.mergeable.definitions
    rw [this]; nofun

end

section goes
variable {c : PEnv} {root : SchemaNode} {pid : String}

theorem goes_defs {k : Nat} {o : Opts}
    (hsup : ∀ d ts m, Inside root d ts m → PlaceOk c o root d ts m) {kw : String}
    (hkw : PlainName kw) : ∀ l : List (String × SchemaNode),
    (∀ q ∈ l, Inside root 1 [kw, q.1] q.2 ∧ PlainName q.1) →
    Goes c root (Visited c o root) pid 1 [] (parseDefs c (parseRec c k) kw l) (fun _ => True) := by
  intro l
  induction l with
  | nil => intro _; unfold parseDefs; exact Goes.pure trivial
  | cons q t ih =>
    intro hl
    obtain ⟨name, m⟩ := q
    obtain ⟨hin, hnm⟩ := hl (name, m) (by simp)
    unfold parseDefs
    refine Goes.bind (Q := fun _ => True) (fun _ => keeps_parseDefs (keeps_parseRec k) kw t) ?_
      (fun _ _ => ih fun q hq => hl q (by simp [hq]))
    refine Goes.imp (goes_inScope (keeps_parseRec k) [kw, name] (pointerText_two [] kw name) ?_
      (goes_parseRec hsup k 1 _ m (.inl hin) (plainTokens_two hkw hnm))) fun _ _ => trivial
    exact goes_sources (us := [kw, name]) (List.prefix_refl _) (plainTokens_two hkw hnm)

theorem goes_root {k : Nat} {o : Opts}
    (hsup : ∀ d ts m, Inside root d ts m → PlaceOk c o root d ts m) :
    Goes c root (Visited c o root) pid 0 [] (parseRoot c (parseRec c k) root) (Done (CompiledK c root (Visited c o root) pid k) root) := by
  have hs := hsup 0 [] root .root
  have one : ∀ {kw : String} {l : List (String × SchemaNode)}, PlainName kw →
      (∀ q ∈ l, Inside root 1 [kw, q.1] q.2 ∧ PlainName q.1) →
      Goes c root (Visited c o root) pid 0 [] (parseDefs c (parseRec c k) kw l) (fun _ => True) := by
    intro kw l hkw hl s a s' hg h he
    have hg1 : Good c root (Visited c o root) pid 1 [] s :=
      ⟨hg.parsing, hg.resolving, hg.queue, hg.path, by have := hg.depth; push_cast at this ⊢; omega, hg.refs, hg.stack, hg.world, hg.texts⟩
    have hev := keeps_parseDefs (keeps_parseRec k) kw l s a s' h
    obtain ⟨hg2, _⟩ := goes_defs hsup hkw l hl s a s' hg1 h he
    exact ⟨⟨hg2.parsing, hg2.resolving, hg2.queue, hg2.path, by rw [hev.depth]; exact hg.depth, hg2.refs, hg2.stack, hg2.world, hg2.texts⟩, trivial⟩
  unfold parseRoot
  refine Goes.bind (Q := fun _ => True) (fun _ => Keeps.bind (keeps_parseDefs (keeps_parseRec k) _ _) fun _ =>
    (keeps_parseRec k).node root) (one (by unfold PlainName; decide) ?_) fun _ _ => ?_
  · rintro ⟨name, m⟩ hq
    cases hp : root.defs with
    | none => rw [hp] at hq; simp [getZeroIfNil] at hq
    | some p =>
      rw [hp] at hq
      obtain ⟨hnd, hnm⟩ := hs.defs p hp
      exact ⟨.named .root (.defs p hp (lookupKV_of_mem hnd hq)), hnm name (mem_keysKV.2 ⟨m, hq⟩)⟩
  refine Goes.bind (Q := fun _ => True) (fun _ => (keeps_parseRec k).node root)
    (one (by unfold PlainName; decide) ?_) fun _ _ => ?_
  · rintro ⟨name, m⟩ hq
    cases hp : root.definitions with
    | none => rw [hp] at hq; simp [getZeroIfNil] at hq
    | some p =>
      rw [hp] at hq
      obtain ⟨hnd, hnm⟩ := hs.definitions p hp
      exact ⟨.named .root (.definitions p hp (lookupKV_of_mem hnd hq)), hnm name (mem_keysKV.2 ⟨m, hq⟩)⟩
  exact goes_parseRec hsup k 0 [] root (.inl .root) (fun t ht => by cases ht)

theorem lookupRef_mem {α : Type} {l : List ((String × String) × α)} {doc path : String} {v : α}
    (h : lookupRef l doc path = some v) : ((doc, path), v) ∈ l := by
  induction l with
  | nil => simp [lookupRef] at h
  | cons e t ih =>
    obtain ⟨k, x⟩ := e
    unfold lookupRef at h
    split at h
    · rename_i hk
      injection h with h
      subst h hk
      exact List.mem_cons_self
    · exact List.mem_cons_of_mem _ (ih h)

/-- A parse that reports no error compiles the whole document. -/
theorem parse_compiled_run {o : Opts} {fuel : Nat} {schema : JVal} {g : Gen} {s : PSt}
    (hroot : decodeNode schema = some root)
    (hsup : ∀ d ts m, Inside root d ts m → PlaceOk c o root d ts m)
    (h : parseSchema c fuel schema = .done (.ok (g, none) s)) (he : s.errors = []) :
    ∃ pid, CompiledK c root (Visited c o root) pid fuel root g ∧ (∀ path g', refEnv s pid path = some g' →
      ∃ k d ts n, PlainTokens ts ∧ path = pointerText ts ∧ Visited c o root d ts n ∧ CompiledK c root (Visited c o root) pid k n g') ∧
      ∃ s0, Good c root (Visited c o root) pid 0 [] s0 ∧ parseRoot c (parseRec c fuel) root s0 = .ok (g, none) s := by
  unfold parseSchema at h
  rw [hroot] at h
  simp only at h
  unfold initState at h
  cases hf : makeFileFetcher c with
  | error e => rw [hf] at h; simp at h
  | ok ff =>
    rw [hf] at h
    simp only at h
    split at h
    · injection h with h
      unfold parseBody at h
      obtain ⟨a, s1, h1, h2⟩ := bind_ok.1 h
      obtain ⟨_, s2, h3, h4⟩ := bind_ok.1 h2
      obtain ⟨ha, hs2⟩ := pure_ok.1 h4
      subst ha hs2
      have e1 : s1.errors = [] := by
        obtain ⟨l, hl⟩ := (top_parseQueue (keeps_parseRec fuel) fuel h3).1.errors
        rw [he] at hl
        exact (List.append_eq_nil_iff.1 hl.symm).2
      have hw : ∀ x : PSt, x.docs = [((rootIds c).2, root)] →
          x.aliases = addAliases [] (collectSubSchemaIds c.url (baseURIOf c.url (rootIds c).2 root) (rootIds c).2 root) →
          x.httpFetcher = (if c.httpOpts.enabled then some c.httpOpts else none) → x.fileFetcher = ff →
          Followable c root → SoleDoc c root (rootIds c).1 x := by
        intro x x1 x2 x3 x4 f
        have hids : rootIds c = (c.relativeTo, c.relativeTo) := by unfold rootIds; rw [if_neg f.base]
        refine ⟨by rw [hids], by rw [x1, hids], ?_, ?_, ?_⟩
        · rw [x2, collect_free f.ids]; rfl
        · rw [x3, f.http]; rfl
        · have hff : makeFileFetcher c = .ok none := by unfold makeFileFetcher; rw [f.file]; rfl
          rw [hff] at hf
          cases hf
          exact x4
      have hg0 : Good c root (Visited c o root) (rootIds c).1 0 []
          { docs := [((rootIds c).2, root)], parsingId := (rootIds c).1, parsed := [((rootIds c).2, true)],
            aliases := addAliases [] (collectSubSchemaIds c.url (baseURIOf c.url (rootIds c).2 root) (rootIds c).2 root),
            resources := [((rootIds c).1, schema)],
            httpFetcher := if c.httpOpts.enabled = true then some c.httpOpts else none, fileFetcher := ff } :=
        ⟨rfl, .inl rfl, rfl, by unfold pointerText; rfl, le_refl _, (by intro path g hl; simp [lookupRef] at hl), .inr (by intro k hk; cases hk),
          hw _ rfl rfl rfl rfl, (by intro e he; rw [List.mem_singleton.1 he]; exact .inl rfl)⟩
      obtain ⟨hg, _, hd⟩ := goes_root hsup _ _ _ hg0 h1 e1
      have hq : s2 = s1 := by
        cases fuel with
        | zero => simp [parseQueue] at h3
        | succ f =>
          unfold parseQueue at h3
          obtain ⟨q, s3, h5, h6⟩ := bind_ok.1 h3
          have h7 : q = [] ∧ s3 = s1 := by
            cases h5
            exact ⟨hg.queue, rfl⟩
          obtain ⟨rfl, rfl⟩ := h7
          exact (pure_ok.1 h6).2.symm
      subst hq
      refine ⟨_, hd, ?_, _, hg0, h1⟩
      intro path g' hr
      unfold refEnv at hr
      exact hg.refs path g' hr
    · simp at h

theorem parse_compiled {o : Opts} {fuel : Nat} {schema : JVal} {g : Gen} {s : PSt}
    (hroot : decodeNode schema = some root)
    (hsup : ∀ d ts m, Inside root d ts m → PlaceOk c o root d ts m)
    (h : parseSchema c fuel schema = .done (.ok (g, none) s)) (he : s.errors = []) :
    ∃ pid, CompiledK c root (Visited c o root) pid fuel root g ∧ ∀ path g', refEnv s pid path = some g' →
      ∃ k d ts n, PlainTokens ts ∧ path = pointerText ts ∧ Visited c o root d ts n ∧ CompiledK c root (Visited c o root) pid k n g' := by
  obtain ⟨pid, h1, h2, -⟩ := parse_compiled_run hroot hsup h he
  exact ⟨pid, h1, h2⟩

end goes

end Chaff
