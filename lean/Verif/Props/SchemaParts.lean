import Verif.Spec.SchemaParts
import Verif.Props.Types
import Verif.Props.Array
import Verif.Lemmas.PKeeps
import Verif.Lemmas.DemoEnv
/-!
# C09 - C18, C72: objects and arrays, from the schema to the value

`Props/Object.lean` and `Props/Array.lean` speak about generators.  Here the same properties are stated for the schema:
the keywords reach the generator, and each part of the generator is made from the sub-schema under its own keyword.
-/

namespace Chaff
open Comp

/-! ## The dispatch on the type -/

theorem ofType_parse {c : PEnv} {k : Nat} {n : SchemaNode} {s s' : PSt} {g : Gen} {t : String} (hn : OfType n t)
    (ht : t ≠ "") (hu : t ≠ "unknown") (h : (parseRec c (k + 1)).schema n s = .ok (g, none) s') :
    parseType c (parseRec c k) t n s = .ok (g, none) s' := by
  rcases hn.type with h1 | ⟨h1, h2⟩
  · exact plain_typed hn.plain hn.enum hn.const h1 ht h
  · change parseSchemaStep c (parseRec c k) n s = _ at h
    rw [plain_step hn.plain] at h
    cases hk : checkUnsupported n with
    | some e => rw [hk] at h; exact absurd h nullErr_ok
    | none =>
      rw [hk, hn.enum, hn.const] at h
      dsimp only at h
      unfold parseByType at h
      rw [h1] at h
      dsimp only [Option.bind] at h
      rw [if_neg (show ¬ (getZeroIfNil (none : Option MultipleType) {}).single ≠ "" by decide), h2, if_neg hu] at h
      exact h

/-! ## The parts of an object generator -/

/-- A part of an object generator: made from its schema, or null for a refused one. -/
def PartFor (c : PEnv) (scope : String) (x : SchemaNode) (g : Gen) : Prop :=
  Made c scope x g ∨ (g = .null ∧ Refused c scope x)

theorem partFor_of {c : PEnv} {k : Nat} {scope : String} {x : SchemaNode} {s s' : PSt} {r : Gen × Option Err}
    (h : parseInScope c (parseRec c k) scope x [] s = .ok r s') : PartFor c scope x (orNull r) := by
  obtain ⟨g, e⟩ := r
  cases e with
  | none => exact .inl ⟨_, _, _, h⟩
  | some e => exact .inr ⟨rfl, _, _, _, _, _, h⟩

theorem produced_null {ctx : Ctx} {j : Nat} {v : JVal} (hv : Produced (generate ctx j) .null v) : v = .null := by
  obtain ⟨st, st', hv⟩ := hv
  cases j with
  | zero => exact absurd hv nofun
  | succ j =>
    change (do tick; pure JVal.null : M JVal) st = _ at hv
    obtain ⟨_, _, _, hv⟩ := bind_ok.1 hv
    exact (pure_ok.1 hv).1.symm

theorem PartFor.value {c : PEnv} {ctx : Ctx} {scope : String} {x : SchemaNode} {g : Gen} (h : PartFor c scope x g) {j : Nat}
    {v : JVal} (hv : Produced (generate ctx j) g v) : FieldFor c ctx scope x v := by
  obtain ⟨st, st', hv⟩ := hv
  rcases h with h | ⟨rfl, h⟩
  · exact .inl ⟨g, h, j, st, st', hv⟩
  · refine .inr ⟨?_, h⟩
    exact produced_null ⟨st, st', hv⟩

theorem parseProps_parts {c : PEnv} {k : Nat} : ∀ {l : List (String × SchemaNode)} {ps : List (String × Gen)} {s s' : PSt},
    parseProps c (parseRec c k) l s = .ok ps s' →
    ps.map Prod.fst = l.map Prod.fst ∧
      ∀ name g, lookupKV ps name = some g → ∃ x, lookupKV l name = some x ∧ PartFor c ("/properties/" ++ name) x g := by
  intro l
  induction l with
  | nil =>
    intro ps s s' h
    unfold parseProps at h
    obtain ⟨rfl, _⟩ := pure_ok.1 h
    exact ⟨rfl, nofun⟩
  | cons p t ih =>
    obtain ⟨name, x⟩ := p
    intro ps s s' h
    unfold parseProps at h
    obtain ⟨r, s1, h1, h⟩ := bind_ok.1 h
    obtain ⟨rest, s2, h2, h⟩ := bind_ok.1 h
    obtain ⟨rfl, _⟩ := pure_ok.1 h
    obtain ⟨hk, hl⟩ := ih h2
    refine ⟨by simp [hk], ?_⟩
    intro name' g hg
    unfold lookupKV at hg ⊢
    split at hg
    · rename_i heq
      subst heq
      cases hg
      exact ⟨x, if_pos rfl, partFor_of h1⟩
    · rename_i hne
      obtain ⟨y, hy, hp⟩ := hl name' g hg
      exact ⟨y, by rw [if_neg hne]; exact hy, hp⟩

/-- The generator of names of the pattern `p`, if the pattern can be used. -/
def RegexOf (c : PEnv) (p : String) : Option RxGen → Prop
  | some rg => newRegexGenerator c.rxParse c.rxPattern p.toList = .ok rg
  | none => ∃ e, newRegexGenerator c.rxParse c.rxPattern p.toList = .err e

theorem patternRegex_built {c : PEnv} {p : String} {o : Option RxGen} {s s' : PSt} (h : patternRegex c p s = .ok o s') :
    RegexOf c p o := by
  unfold patternRegex buildRegex at h
  cases hb : newRegexGenerator c.rxParse c.rxPattern p.toList with
  | ok g =>
    rw [hb] at h
    obtain ⟨_, _, h1, h⟩ := bind_ok.1 h
    obtain ⟨rfl, rfl⟩ := pure_ok.1 h1
    obtain ⟨rfl, _⟩ := pure_ok.1 h
    exact hb
  | err e =>
    rw [hb] at h
    obtain ⟨_, _, h1, h⟩ := bind_ok.1 h
    obtain ⟨rfl, rfl⟩ := pure_ok.1 h1
    obtain ⟨_, _, _, h⟩ := bind_ok.1 h
    obtain ⟨rfl, _⟩ := pure_ok.1 h
    exact ⟨e, hb⟩
  | panic e =>
    rw [hb] at h
    obtain ⟨_, _, h1, h⟩ := bind_ok.1 h
    exact absurd h1 nofun

theorem parsePatProps_parts {c : PEnv} {k : Nat} : ∀ {l : List (String × SchemaNode)}
    {ps : List (String × (Gen × Option RxGen))} {s s' : PSt}, parsePatProps c (parseRec c k) l s = .ok ps s' →
    List.Forall₂ (fun q p => p.1 = q.1 ∧ PartFor c ("/patternProperties/" ++ q.1) q.2 p.2.1 ∧ RegexOf c q.1 p.2.2) l ps := by
  intro l
  induction l with
  | nil =>
    intro ps s s' h
    unfold parsePatProps at h
    obtain ⟨rfl, _⟩ := pure_ok.1 h
    exact .nil
  | cons p t ih =>
    obtain ⟨name, x⟩ := p
    intro ps s s' h
    unfold parsePatProps at h
    obtain ⟨r, s1, h1, h⟩ := bind_ok.1 h
    obtain ⟨rx, s2, h2, h⟩ := bind_ok.1 h
    obtain ⟨rest, s3, h3, h⟩ := bind_ok.1 h
    obtain ⟨rfl, _⟩ := pure_ok.1 h
    exact .cons ⟨rfl, partFor_of h1, patternRegex_built h2⟩ (ih h3)

theorem parseAddProps_part {c : PEnv} {k : Nat} {n : SchemaNode} {o : Option Gen} {s s' : PSt}
    (h : parseAddProps c (parseRec c k) n.additionalProperties s = .ok o s') :
    (∀ g, o = some g → ∃ x, AdditionalSchema n x ∧ PartFor c "/additionalProperties" x g) ∧
      (o = none → ∀ x, ¬ AdditionalSchema n x) := by
  unfold parseAddProps at h
  cases hd : n.additionalProperties with
  | none =>
    rw [hd] at h
    obtain ⟨rfl, _⟩ := pure_ok.1 h
    refine ⟨nofun, ?_⟩
    rintro - x ⟨d, h1, -⟩
    rw [hd] at h1
    cases h1
  | some d =>
    rw [hd] at h
    dsimp only at h
    cases hf : d.isFalse with
    | true =>
      rw [hf, if_pos rfl] at h
      obtain ⟨rfl, _⟩ := pure_ok.1 h
      refine ⟨nofun, ?_⟩
      rintro - x ⟨d', h1, h2, -⟩
      rw [hd] at h1
      cases h1
      rw [hf] at h2
      cases h2
    | false =>
      rw [hf, if_neg (by simp)] at h
      cases hs : d.schema with
      | none =>
        rw [hs] at h
        obtain ⟨rfl, _⟩ := pure_ok.1 h
        refine ⟨nofun, ?_⟩
        rintro - x ⟨d', h1, h2, h3⟩
        rw [hd] at h1
        cases h1
        rw [hs] at h3
        cases h3
      | some x =>
        rw [hs] at h
        obtain ⟨r, s1, h1, h⟩ := bind_ok.1 h
        obtain ⟨rfl, _⟩ := pure_ok.1 h
        refine ⟨?_, nofun⟩
        rintro g hg
        cases hg
        exact ⟨x, ⟨d, hd, hf, hs⟩, partFor_of h1⟩

/-- The generator of an object schema: the numbers and names of the schema, and parts made from its sub-schemas. -/
structure ObjectParts (c : PEnv) (n : SchemaNode) (g : ObjGen Gen) : Prop where
  checked : checkObject n = none
  names : g.props.map Prod.fst = n.declared.map Prod.fst
  props : ∀ k pg, lookupKV g.props k = some pg → ∃ x, lookupKV n.declared k = some x ∧ PartFor c ("/properties/" ++ k) x pg
  patProps : List.Forall₂ (fun q p => p.1 = q.1 ∧ PartFor c ("/patternProperties/" ++ q.1) q.2 p.2.1 ∧ RegexOf c q.1 p.2.2) n.patterns g.patProps
  additional : ∀ a, g.additional = some a → ∃ x, AdditionalSchema n x ∧ PartFor c "/additionalProperties" x a
  noAdditional : g.additional = none → ∀ x, ¬ AdditionalSchema n x
  closed : g.disallowAdditional = true ↔ ClosedObject n
  required : g.required = n.requiredNames
  minProps : g.minProps = n.minProperties.getD 0
  maxProps : g.maxProps = n.maxProperties.getD 0

theorem zero_getD {α : Type} (o : Option α) (z : α) : getZeroIfNil o z = o.getD z := by cases o <;> rfl

theorem object_parts {c : PEnv} {k : Nat} {n : SchemaNode} {s s' : PSt} {g : Gen} (hn : OfType n "object")
    (h : (parseRec c (k + 1)).schema n s = .ok (g, none) s') : ∃ og, g = .obj og ∧ ObjectParts c n og := by
  have h := ofType_parse hn (by decide) (by decide) h
  unfold parseType at h
  rw [if_pos rfl] at h
  unfold parseObject at h
  cases hk : checkObject n with
  | some e => rw [hk] at h; exact absurd h nullErr_ok
  | none =>
    rw [hk] at h
    dsimp only at h
    obtain ⟨pats, s1, h1, h⟩ := bind_ok.1 h
    obtain ⟨props, s2, h2, h⟩ := bind_ok.1 h
    obtain ⟨additional, s3, h3, h⟩ := bind_ok.1 h
    obtain ⟨rfl, _⟩ := okGen_ok h
    rw [zero_getD] at h1 h2
    obtain ⟨hnames, hprops⟩ := parseProps_parts h2
    obtain ⟨ha, hna⟩ := parseAddProps_part h3
    refine ⟨_, rfl, hk, hnames, hprops, parsePatProps_parts h1, ha, hna, ?_, zero_getD _ _, zero_getD _ _, zero_getD _ _⟩
    unfold ClosedObject
    dsimp only
    cases n.additionalProperties with
    | none => simp [getZeroIfNil]
    | some d => simp [getZeroIfNil]

/-! ## Objects -/

theorem ObjectParts.patterns_nil {c : PEnv} {n : SchemaNode} {g : ObjGen Gen} (h : ObjectParts c n g) :
    g.patProps = [] ↔ n.patterns = [] := by
  have := h.patProps.length_eq
  constructor <;> intro h1
  · rw [h1] at this; exact List.length_eq_zero_iff.1 this
  · rw [h1] at this; exact List.length_eq_zero_iff.1 this.symm

theorem forall₂_right {α β : Type} {R : α → β → Prop} {l : List α} {l' : List β} (h : List.Forall₂ R l l') {b : β}
    (hb : b ∈ l') : ∃ a ∈ l, R a b := by
  induction h with
  | nil => cases hb
  | cons h1 _ ih =>
    rcases List.mem_cons.1 hb with rfl | hb
    · exact ⟨_, List.mem_cons_self, h1⟩
    · obtain ⟨a, ha, hr⟩ := ih hb
      exact ⟨a, List.mem_cons_of_mem _ ha, hr⟩

/-- **C09.** An object generated before the cutoff for an accepted object schema has every required name. -/
theorem C09_schema_required (c : PEnv) (k : Nat) (n : SchemaNode) (s s' : PSt) (g : Gen) (hn : OfType n "object")
    (h : (parseRec c (k + 1)).schema n s = .ok (g, none) s') (ctx : Ctx) (j : Nat) (st st' : GSt) (v : JVal)
    (hg : generate ctx j g st = .ok v st') (hcut : shouldCutoff ctx.o (st.complexity + 1) = false) :
    ∃ fields, v = .obj fields ∧ ∀ names, n.required = some names → ∀ name ∈ names, ∃ x, (name, x) ∈ fields := by
  obtain ⟨og, rfl, hp⟩ := object_parts hn h
  obtain ⟨fields, rfl, hr⟩ := C09_required_present ctx j og st v st' hg hcut
  refine ⟨fields, rfl, fun names hnames name hm => hr name ?_⟩
  rw [hp.required]
  unfold SchemaNode.requiredNames
  rw [hnames]
  exact hm

/-- **C10.** For an accepted object schema with `additionalProperties: false` and no `patternProperties` every name of a
generated object is declared or required. -/
theorem C10_schema_closed (c : PEnv) (k : Nat) (n : SchemaNode) (s s' : PSt) (g : Gen) (hn : OfType n "object")
    (h : (parseRec c (k + 1)).schema n s = .ok (g, none) s') (hc : ClosedObject n) (hpat : n.patterns = [])
    (ctx : Ctx) (j : Nat) (st st' : GSt) (fields : List (String × JVal))
    (hg : generate ctx j g st = .ok (.obj fields) st') :
    ∀ name x, (name, x) ∈ fields → name ∈ n.declared.map Prod.fst ∨ name ∈ n.requiredNames := by
  obtain ⟨og, rfl, hp⟩ := object_parts hn h
  intro name x hx
  rcases C10_additionalProperties_false ctx j og st fields st' (hp.closed.2 hc) (hp.patterns_nil.2 hpat) hg name x hx with
    ⟨pg, h1⟩ | h1
  · rw [← hp.names]
    exact .inl (List.mem_map.2 ⟨_, h1, rfl⟩)
  · exact .inr (hp.required ▸ h1)

/-- **C11.** For an accepted object schema with a positive `maxProperties`, not below the configured default minimum
unless the schema has its own, no generated object has more properties. -/
theorem C11_schema_maxProperties (c : PEnv) (k : Nat) (n : SchemaNode) (s s' : PSt) (g : Gen) (hn : OfType n "object")
    (h : (parseRec c (k + 1)).schema n s = .ok (g, none) s') (m : Int) (hm : n.maxProperties = some m) (hpos : 0 < m)
    (ctx : Ctx) (hdef : n.minProperties.getD 0 = 0 → ctx.o.defaultObjectMinProperties ≤ m)
    (j : Nat) (st st' : GSt) (fields : List (String × JVal))
    (hg : generate ctx j g st = .ok (.obj fields) st') : (fields.length : Int) ≤ m := by
  obtain ⟨og, rfl, hp⟩ := object_parts hn h
  have hmax : og.maxProps = m := by rw [hp.maxProps, hm]; rfl
  have hck := hp.checked
  unfold checkObject at hck
  simp only [zero_getD, hm, Option.isSome_some, true_and, Option.getD_some] at hck
  split at hck
  · cases hck
  · split at hck
    · cases hck
    · split at hck
      · cases hck
      · split at hck
        · cases hck
        · rename_i h1 h2
          refine hmax ▸ C11_maxProperties ctx j og st fields st' (by omega) ?_ ?_ ?_ hg
          · rw [hmax, hp.required]
            unfold SchemaNode.requiredNames
            omega
          · rw [hmax, hp.minProps]
            omega
          · rw [hmax, hp.minProps]
            exact hdef

/-- **C12.** For an accepted object schema with a positive `minProperties` that allows further names, no generated object
has fewer properties, provided no filler name is required, declared or a name some pattern can generate. -/
theorem C12_schema_minProperties (c : PEnv) (k : Nat) (n : SchemaNode) (s s' : PSt) (g : Gen) (hn : OfType n "object")
    (h : (parseRec c (k + 1)).schema n s = .ok (g, none) s') (m : Int) (hm : n.minProperties = some m) (hpos : 0 < m)
    (hopen : n.patterns ≠ [] ∨ ¬ ClosedObject n) (ctx : Ctx)
    (hfree : ∀ i : Nat, s!"min_filler_{i}" ∉ n.requiredNames ∧ s!"min_filler_{i}" ∉ n.declared.map Prod.fst ∧
      ∀ p x, (p, x) ∈ n.patterns → ¬ NameFrom c ctx p s!"min_filler_{i}")
    (j : Nat) (st st' : GSt) (fields : List (String × JVal))
    (hg : generate ctx j g st = .ok (.obj fields) st') : m ≤ (fields.length : Int) := by
  obtain ⟨og, rfl, hp⟩ := object_parts hn h
  have hmin : og.minProps = m := by rw [hp.minProps, hm]; rfl
  refine hmin ▸ C12_minProperties ctx j og st fields st' (by omega) ?_ ⟨?_, ?_, ?_⟩ hg
  · rcases hopen with h1 | h1
    · exact .inl (fun h2 => h1 (hp.patterns_nil.1 h2))
    · refine .inr ?_
      cases hd : og.disallowAdditional with
      | false => rfl
      | true => exact absurd (hp.closed.1 hd) h1
  · intro i
    rw [hp.required]
    exact (hfree i).1
  · intro i
    unfold keysKV
    rw [hp.names]
    exact (hfree i).2.1
  · intro rx pg rg hmem i hkey
    obtain ⟨q, hq, h1, -, h2⟩ := forall₂_right hp.patProps hmem
    exact (hfree i).2.2 q.1 q.2 hq ⟨rg, h2, hkey⟩

/-- **C13.** Every entry of an object generated for an accepted object schema has one of the reasons listed in `Stored`:
a declared name carries a value for its own schema, a name from a pattern carries a value for the schema of that
pattern, a further property carries a value for `additionalProperties`. -/
theorem C13_schema_entries (c : PEnv) (k : Nat) (n : SchemaNode) (s s' : PSt) (g : Gen) (hn : OfType n "object")
    (h : (parseRec c (k + 1)).schema n s = .ok (g, none) s') (ctx : Ctx) (j : Nat) (st st' : GSt)
    (fields : List (String × JVal)) (hg : generate ctx j g st = .ok (.obj fields) st') :
    ∀ name v, (name, v) ∈ fields → Stored c ctx n name v := by
  obtain ⟨og, rfl, hp⟩ := object_parts hn h
  obtain ⟨j', _, h1 | ⟨_, m, hm, hok⟩⟩ := generate_obj_post ctx j og st _ st' hg
  · cases h1.1
  · cases hm
    intro name v hv
    cases hok.ok.entries name v hv with
    | declared hl hpr =>
      obtain ⟨x, hx, hpart⟩ := hp.props _ _ hl
      exact .declared hx (hpart.value hpr)
    | undeclared i pre hr hnk heq =>
      refine .undeclared i pre (hp.required ▸ hr) ?_ heq
      rw [← hp.names]
      exact hnk
    | pattern hmem hkey hpr =>
      obtain ⟨q, hq, h1, h2, h3⟩ := forall₂_right hp.patProps hmem
      exact .pattern hq ⟨_, h3, hkey⟩ (h2.value hpr)
    | badPattern hmem =>
      obtain ⟨q, hq, h1, h2, e, h3⟩ := forall₂_right hp.patProps hmem
      exact .badPattern hq h3
    | additional i hnp hd ha hk' hpr =>
      obtain ⟨x, hx, hpart⟩ := hp.additional _ ha
      exact .additional i (hp.patterns_nil.1 hnp) hx hk' (hpart.value hpr)
    | fallback i hnp hd ha hs hk' hpr =>
      refine .fallback i (hp.patterns_nil.1 hnp) ?_ (hp.noAdditional ha) hs hk' (produced_null hpr)
      intro hc
      rw [hp.closed.2 hc] at hd
      cases hd
    | filler i _ hx hk' hpr =>
      refine .filler i ?_ hk' ?_
      · rcases hx with hx | hx
        · exact .inl (fun h2 => hx (hp.patterns_nil.2 h2))
        · refine .inr (fun hc => ?_)
          rw [hp.closed.2 hc] at hx
          cases hx
      · cases ha : og.additional with
        | none =>
          rw [ha] at hpr
          exact .inr ⟨produced_null hpr, hp.noAdditional ha⟩
        | some a =>
          rw [ha] at hpr
          obtain ⟨x, hx, hpart⟩ := hp.additional _ ha
          exact .inl ⟨x, hx, hpart.value hpr⟩

/-! ## The parts of an array generator -/

theorem asSub_made {c : PEnv} {k : Nat} {scope : String} {x : SchemaNode} {s s' : PSt} {o : Option Gen}
    (h : asSub (parseInScope c (parseRec c k) scope x []) s = .ok (.ok o) s') : ∃ g, o = some g ∧ Made c scope x g := by
  unfold asSub at h
  obtain ⟨⟨g, e⟩, s1, h1, h⟩ := bind_ok.1 h
  cases e with
  | some e => exact absurd (pure_ok.1 h).1 nofun
  | none =>
    obtain ⟨h2, _⟩ := pure_ok.1 h
    cases h2
    exact ⟨g, rfl, _, _, _, h1⟩

theorem parseItems_made {c : PEnv} {k : Nat} {n : SchemaNode} {s s' : PSt} {o : Option Gen}
    (h : parseItems c (parseRec c k) n.items s = .ok (.ok o) s') :
    (∀ g, o = some g → ∃ x, ItemsSchema n x ∧ Made c "/items" x g) ∧ (o = none → ∀ x, ¬ ItemsSchema n x) := by
  unfold parseItems at h
  cases hd : n.items with
  | none =>
    rw [hd] at h
    have h1 := (pure_ok.1 h).1
    cases h1
    refine ⟨nofun, ?_⟩
    rintro - x ⟨d, h1, -⟩
    rw [hd] at h1
    cases h1
  | some d =>
    rw [hd] at h
    dsimp only at h
    cases hf : d.disallow with
    | true =>
      rw [hf, if_pos rfl] at h
      have h1 := (pure_ok.1 h).1
      cases h1
      refine ⟨nofun, ?_⟩
      rintro - x ⟨d', h1, h2, -⟩
      rw [hd] at h1
      cases h1
      rw [hf] at h2
      cases h2
    | false =>
      rw [hf, if_neg (by simp)] at h
      cases hs : d.node with
      | none =>
        rw [hs] at h
        have h1 := (pure_ok.1 h).1
        cases h1
        refine ⟨nofun, ?_⟩
        rintro - x ⟨d', h1, h2, h3⟩
        rw [hd] at h1
        cases h1
        rw [hs] at h3
        cases h3
      | some x =>
        rw [hs] at h
        obtain ⟨g, rfl, hm⟩ := asSub_made h
        refine ⟨?_, nofun⟩
        intro g' hg
        cases hg
        exact ⟨x, ⟨d, hd, hf, hs⟩, hm⟩

theorem parseOrFalse_made {c : PEnv} {k : Nat} {scope : String} {y : Option (NodeOrFalse SchemaNode)} {s s' : PSt}
    {o : Option Gen} (h : parseOrFalse c (parseRec c k) scope y s = .ok (.ok o) s') :
    (∀ g, o = some g → ∃ x, (∃ d, y = some d ∧ d.schema = some x) ∧ Made c scope x g) ∧
      (o = none → ∀ x, ¬ ∃ d, y = some d ∧ d.schema = some x) := by
  unfold parseOrFalse at h
  cases y with
  | none =>
    have h1 := (pure_ok.1 h).1
    cases h1
    exact ⟨nofun, by rintro - x ⟨d, h1, -⟩; cases h1⟩
  | some d =>
    dsimp only at h
    cases hs : d.schema with
    | none =>
      rw [hs] at h
      have h1 := (pure_ok.1 h).1
      cases h1
      refine ⟨nofun, ?_⟩
      rintro - x ⟨d', h1, h3⟩
      cases h1
      rw [hs] at h3
      cases h3
    | some x =>
      rw [hs] at h
      obtain ⟨g, rfl, hm⟩ := asSub_made h
      refine ⟨?_, nofun⟩
      intro g' hg
      cases hg
      exact ⟨x, ⟨d, rfl, hs⟩, hm⟩

theorem parseContains_made {c : PEnv} {k : Nat} {n : SchemaNode} {s s' : PSt} {o : Option Gen}
    (h : parseContains c (parseRec c k) n s = .ok (.ok o) s') :
    (∀ g, o = some g → ∃ x m, n.contains = some x ∧ ContainsSchema c n x m ∧ Made c "/contains" m g) ∧
      (o = none → n.contains = none) := by
  unfold parseContains at h
  cases hx : n.contains with
  | none =>
    rw [hx] at h
    have h1 := (pure_ok.1 h).1
    cases h1
    exact ⟨nofun, fun _ => rfl⟩
  | some x =>
    rw [hx] at h
    dsimp only at h
    obtain ⟨m, s1, h1, h⟩ := bind_ok.1 h
    obtain ⟨g, rfl, hm⟩ := asSub_made h
    refine ⟨?_, nofun⟩
    intro g' hg
    cases hg
    refine ⟨x, m, rfl, ?_, hm⟩
    unfold mergedContains at h1
    unfold ContainsSchema
    cases hi : n.items with
    | none =>
      rw [hi] at h1
      exact .inl ⟨rfl, (pure_ok.1 h1).1.symm⟩
    | some d =>
      rw [hi] at h1
      dsimp only at h1
      cases hd : d.node with
      | none =>
        rw [hd] at h1
        exact .inl ⟨hd, (pure_ok.1 h1).1.symm⟩
      | some it =>
        rw [hd] at h1
        dsimp only at h1
        obtain ⟨r, s2, h2, h1⟩ := bind_ok.1 h1
        exact .inr ⟨it, _, _, _, r, hd, h2, (pure_ok.1 h1).1.symm⟩

theorem parseTuple_made {c : PEnv} {k : Nat} : ∀ {l : List SchemaNode} {i : Nat} {gs : List Gen} {s s' : PSt},
    parseTuple c (parseRec c k) i l s = .ok (.ok gs) s' →
    gs.length = l.length ∧ ∀ (j : Nat) x g, l[j]? = some x → gs[j]? = some g → Made c s!"/prefixItems/{i + j}" x g := by
  intro l
  induction l with
  | nil =>
    intro i gs s s' h
    unfold parseTuple at h
    have h1 := (pure_ok.1 h).1
    cases h1
    exact ⟨rfl, nofun⟩
  | cons y t ih =>
    intro i gs s s' h
    unfold parseTuple at h
    obtain ⟨⟨g, e⟩, s1, h1, h⟩ := bind_ok.1 h
    cases e with
    | some e => exact absurd (pure_ok.1 h).1 nofun
    | none =>
      dsimp only at h
      obtain ⟨rest, s2, h2, h⟩ := bind_ok.1 h
      cases rest with
      | error e => exact absurd (pure_ok.1 h).1 nofun
      | ok rest =>
        have h3 := (pure_ok.1 h).1
        cases h3
        obtain ⟨hl, hi⟩ := ih h2
        refine ⟨by simp [hl], ?_⟩
        intro j x g' hx hg
        cases j with
        | zero =>
          cases hx
          cases hg
          exact ⟨_, _, _, h1⟩
        | succ j =>
          rw [show i + (j + 1) = i + 1 + j by omega]
          exact hi j x g' hx hg

theorem tupleNodes_leading (n : SchemaNode) : tupleNodes n = n.leading := by
  unfold tupleNodes SchemaNode.leading
  cases n.prefixItems with
  | none => cases n.items <;> rfl
  | some l =>
    cases l with
    | nil => cases n.items <;> rfl
    | cons x l => rfl

/-- The generator of an array schema: the numbers of the schema, and parts made from its sub-schemas. -/
structure ArrayParts (c : PEnv) (n : SchemaNode) (g : ArrGen Gen) : Prop where
  checked : checkArray n = none
  length : g.tuple.length = n.leading.length
  tuple : ∀ (i : Nat) x tg, n.leading[i]? = some x → g.tuple[i]? = some tg → Made c s!"/prefixItems/{i}" x tg
  item : ∀ a, g.item = some a → ∃ x, ItemsSchema n x ∧ Made c "/items" x a
  noItem : g.item = none → ∀ x, ¬ ItemsSchema n x
  additional : ∀ a, g.additional = some a → ∃ x, AdditionalItemsSchema n x ∧ Made c "/additionalItems" x a
  noAdditional : g.additional = none → ∀ x, ¬ AdditionalItemsSchema n x
  contains : ∀ a, g.contains = some a → ∃ x m, n.contains = some x ∧ ContainsSchema c n x m ∧ Made c "/contains" m a
  noContains : g.contains = none → n.contains = none
  unevaluated : ∀ a, g.unevaluated = some a → ∃ x, UnevaluatedSchema n x ∧ Made c "/unevaluatedItems" x a
  noUnevaluated : g.unevaluated = none → ∀ x, ¬ UnevaluatedSchema n x
  disallowUnevaluated : g.disallowUnevaluated = true ↔ ∃ d, n.unevaluatedItems = some d ∧ d.isFalse = true
  unique : g.unique = true ↔ n.uniqueItems = some true
  minContains : g.minContains = effMinContains n
  minItems : g.minItems = (arrayRange n).1
  maxItems : g.maxItems = (arrayRange n).2
  closed : g.disallowAdditional = true ↔ ItemsFalse n

theorem array_parts {c : PEnv} {k : Nat} {n : SchemaNode} {s s' : PSt} {g : Gen} (hn : OfType n "array")
    (h : (parseRec c (k + 1)).schema n s = .ok (g, none) s') : ∃ ag, g = .arr ag ∧ ArrayParts c n ag := by
  have h := ofType_parse hn (by decide) (by decide) h
  unfold parseType at h
  rw [if_neg (by decide), if_pos rfl] at h
  unfold parseArray at h
  cases hk : checkArray n with
  | some e => rw [hk] at h; exact absurd h nullErr_ok
  | none =>
    rw [hk] at h
    dsimp only at h
    obtain ⟨item, s1, h1, h⟩ := bind_ok.1 h
    cases item with
    | error e => exact absurd h nullErr_ok
    | ok item =>
    dsimp only at h
    obtain ⟨additional, s2, h2, h⟩ := bind_ok.1 h
    cases additional with
    | error e => exact absurd h nullErr_ok
    | ok additional =>
    dsimp only at h
    obtain ⟨contains, s3, h3, h⟩ := bind_ok.1 h
    cases contains with
    | error e => exact absurd h nullErr_ok
    | ok contains =>
    dsimp only at h
    obtain ⟨tuple, s4, h4, h⟩ := bind_ok.1 h
    cases tuple with
    | error e => exact absurd h nullErr_ok
    | ok tuple =>
    dsimp only at h
    obtain ⟨unevaluated, s5, h5, h⟩ := bind_ok.1 h
    cases unevaluated with
    | error e => exact absurd h nullErr_ok
    | ok unevaluated =>
    obtain ⟨rfl, _⟩ := okGen_ok h
    rw [tupleNodes_leading] at h4
    obtain ⟨hl, ht⟩ := parseTuple_made h4
    obtain ⟨hi, hni⟩ := parseItems_made h1
    obtain ⟨ha, hna⟩ := parseOrFalse_made h2
    obtain ⟨hc, hnc⟩ := parseContains_made h3
    obtain ⟨hu, hnu⟩ := parseOrFalse_made h5
    have hun : ∀ x, (∃ d, unevaluatedSchema n = some d ∧ d.schema = some x) ↔ UnevaluatedSchema n x := by
      intro x
      unfold unevaluatedSchema UnevaluatedSchema
      cases n.unevaluatedItems with
      | none => simp
      | some d => cases hf : d.isFalse <;> simp [hf]
    refine ⟨_, rfl, hk, hl, ?_, hi, hni, ha, hna, hc, hnc, ?_, ?_, ?_, ?_, rfl, rfl, rfl, ?_⟩
    · intro i x tg hx htg
      have := ht i x tg hx htg
      rwa [Nat.zero_add] at this
    · intro a h'
      obtain ⟨x, hx, hm⟩ := hu a h'
      exact ⟨x, (hun x).1 hx, hm⟩
    · intro h' x hx
      exact hnu h' x ((hun x).2 hx)
    · show (match n.unevaluatedItems with | some d => d.isFalse | none => false) = true ↔ _
      cases n.unevaluatedItems <;> simp
    · show getZeroIfNil n.uniqueItems false = true ↔ _
      cases n.uniqueItems <;> simp [getZeroIfNil]
    · show (match n.items with | some d => d.disallow | none => false) = true ↔ ItemsFalse n
      unfold ItemsFalse
      cases n.items <;> simp

/-! ## Arrays -/

theorem open_range {n : SchemaNode} (hi : ¬ ItemsFalse n) (ha : ¬ AdditionalItemsFalse n) : disallowsMore n = false := by
  unfold disallowsMore
  unfold ItemsFalse at hi
  unfold AdditionalItemsFalse at ha
  cases h1 : n.items with
  | none =>
    cases h2 : n.additionalItems with
    | none => rfl
    | some d => simp_all
  | some d =>
    cases h2 : n.additionalItems with
    | none => simp_all
    | some d => simp_all

/-- **C14.** An array generated before the cutoff for an accepted array schema with a positive `minItems` has at least
that many items, unless `items` or `additionalItems` is false. -/
theorem C14_schema_minItems (c : PEnv) (k : Nat) (n : SchemaNode) (s s' : PSt) (g : Gen) (hn : OfType n "array")
    (h : (parseRec c (k + 1)).schema n s = .ok (g, none) s') (m : Int) (hm : n.minItems = some m) (hpos : 0 < m)
    (hi : ¬ ItemsFalse n) (ha : ¬ AdditionalItemsFalse n) (ctx : Ctx) (j : Nat) (st st' : GSt) (v : JVal)
    (hg : generate ctx j g st = .ok v st') (hcut : shouldCutoff ctx.o (st.complexity + 1) = false) :
    ∃ items, v = .arr items ∧ m ≤ (items.length : Int) := by
  obtain ⟨ag, rfl, hp⟩ := array_parts hn h
  have hmin : ag.minItems = m := by
    rw [hp.minItems]
    unfold arrayRange
    rw [open_range hi ha, if_neg (by simp)]
    simp only [hm, getZeroIfNil]
    unfold getInt
    rw [if_pos (by omega)]
  have hcl : ag.disallowAdditional = false := by
    cases hd : ag.disallowAdditional with
    | false => rfl
    | true => exact absurd (hp.closed.1 hd) hi
  obtain ⟨items, rfl, hle⟩ := C14_minItems ctx j ag st v st' hg hcut (by omega) hcl
  exact ⟨items, rfl, hmin ▸ hle⟩

/-- **C16.** Item `i` of an array generated for an accepted array schema is a value for the `i`-th schema of `prefixItems`
(or of `items` written as an array). -/
theorem C16_schema_positions (c : PEnv) (k : Nat) (n : SchemaNode) (s s' : PSt) (g : Gen) (hn : OfType n "array")
    (h : (parseRec c (k + 1)).schema n s = .ok (g, none) s') (ctx : Ctx) (j : Nat) (st st' : GSt) (items : List JVal)
    (hg : generate ctx j g st = .ok (.arr items) st') (i : Nat) (x : SchemaNode) (hx : n.leading[i]? = some x) :
    ∃ v, items[i]? = some v ∧ ValueFor c ctx s!"/prefixItems/{i}" x v := by
  obtain ⟨ag, rfl, hp⟩ := array_parts hn h
  have hlt : i < ag.tuple.length := by
    rw [hp.length]
    exact (List.getElem?_eq_some_iff.1 hx).1
  obtain ⟨v, j', s1, s2, hv, _, hgen⟩ := C16_tuple_positions ctx j ag st items st' hg i _ (List.getElem?_eq_getElem hlt)
  exact ⟨v, hv, _, hp.tuple i x _ hx (List.getElem?_eq_getElem hlt), j', s1, s2, hgen⟩

/-- **C16.** With `items: false` the array is exactly as long as `prefixItems`. -/
theorem C16_schema_closed (c : PEnv) (k : Nat) (n : SchemaNode) (s s' : PSt) (g : Gen) (hn : OfType n "array")
    (h : (parseRec c (k + 1)).schema n s = .ok (g, none) s') (hi : ItemsFalse n) (ctx : Ctx) (j : Nat) (st st' : GSt)
    (items : List JVal) (hg : generate ctx j g st = .ok (.arr items) st') : items.length = n.leading.length := by
  obtain ⟨ag, rfl, hp⟩ := array_parts hn h
  rw [← hp.length]
  exact C16_closed_tuple ctx j ag st items st' hg (hp.closed.2 hi)

/-- **C17.** Right after the leading items come `minContains` items (one, when it is absent or 0), each a value for the
`contains` schema merged with the `items` schema, or the warning when unique items are asked for. -/
theorem C17_schema_contains (c : PEnv) (k : Nat) (n : SchemaNode) (s s' : PSt) (g : Gen) (hn : OfType n "array")
    (h : (parseRec c (k + 1)).schema n s = .ok (g, none) s') (x : SchemaNode) (hx : n.contains = some x)
    (hi : ¬ ItemsFalse n) (ctx : Ctx) (j : Nat) (st st' : GSt) (items : List JVal)
    (hg : generate ctx j g st = .ok (.arr items) st') (i : Nat)
    (hlt : (i : Int) < if n.minContains.getD 0 = 0 then 1 else n.minContains.getD 0) :
    ∃ v, items[n.leading.length + i]? = some v ∧
      ((∃ m, ContainsSchema c n x m ∧ ValueFor c ctx "/contains" m v) ∨ (n.uniqueItems = some true ∧ v = notUnique ctx)) := by
  obtain ⟨ag, rfl, hp⟩ := array_parts hn h
  have hcl : ag.disallowAdditional = false := by
    cases hd : ag.disallowAdditional with
    | false => rfl
    | true => exact absurd (hp.closed.1 hd) hi
  cases hcg : ag.contains with
  | none => rw [hp.noContains hcg] at hx; cases hx
  | some cg =>
    obtain ⟨x', m, hx', hm, hmade⟩ := hp.contains cg hcg
    rw [hx] at hx'
    cases hx'
    have hmc : ag.minContains = if n.minContains.getD 0 = 0 then 1 else n.minContains.getD 0 := by
      rw [hp.minContains]
      unfold effMinContains
      rw [zero_getD, hx]
      simp
    have hlt' : (i : Int) < if ag.minContains = 0 then 1 else ag.minContains := by
      rw [hmc]
      by_cases h0 : n.minContains.getD 0 = 0
      · simp only [h0] at hlt ⊢
        simpa using hlt
      · simp only [h0] at hlt ⊢
        simpa [h0] using hlt
    obtain ⟨v, hv, hcase⟩ := C17_contains ctx j ag st items st' cg hg hcl hcg i hlt'
    refine ⟨v, hp.length ▸ hv, ?_⟩
    rcases hcase with ⟨j', s1, s2, _, hgen⟩ | ⟨hu, hw⟩
    · exact .inl ⟨m, hm, cg, hmade, j', s1, s2, hgen⟩
    · exact .inr ⟨hp.unique.1 hu, hw⟩

/-- **C18.** With `uniqueItems`, every item after the leading ones differs, as JSON, from all items before it, or is the
warning. -/
theorem C18_schema_uniqueItems (c : PEnv) (k : Nat) (n : SchemaNode) (s s' : PSt) (g : Gen) (hn : OfType n "array")
    (h : (parseRec c (k + 1)).schema n s = .ok (g, none) s') (hu : n.uniqueItems = some true) (ctx : Ctx) (j : Nat)
    (st st' : GSt) (items : List JVal) (hg : generate ctx j g st = .ok (.arr items) st') (i : Nat) (y : JVal)
    (hi : n.leading.length ≤ i) (hy : items[i]? = some y) :
    y = notUnique ctx ∨ ∀ i' x, i' < i → items[i']? = some x → x.WF → ¬ SameJson x y := by
  obtain ⟨ag, rfl, hp⟩ := array_parts hn h
  exact C18_uniqueItems ctx j ag st items st' hg (hp.unique.2 hu) i y (hp.length ▸ hi) hy

theorem assert_none {a b : Int} (h : assertLowerUpper a b = none) (ha : a ≠ 0) (hb : b ≠ 0) : a ≤ b := by
  unfold assertLowerUpper at h
  rw [if_neg (by omega)] at h
  split at h
  · cases h
  · split at h
    · cases h
    · split at h
      · cases h
      · omega

theorem getPtr_cons_none {α : Type} {o : Option α} {l : List (Option α)} (h : getPtr (o :: l) = none) : o = none ∧ getPtr l = none := by
  cases o with
  | none => exact ⟨rfl, h⟩
  | some a => cases h

/-- **C15.** For an accepted array schema with a positive `maxItems` whose leading items, if any, are given by
`prefixItems`, no generated array has more items.  `additionalItems` is not false, `minContains` is not negative, and
the configured default minimum, which counts when the schema has no minimum, is not larger. -/
theorem C15_schema_maxItems (c : PEnv) (k : Nat) (n : SchemaNode) (s s' : PSt) (g : Gen) (hn : OfType n "array")
    (h : (parseRec c (k + 1)).schema n s = .ok (g, none) s') (m : Int) (hm : n.maxItems = some m) (hpos : 0 < m)
    (hlead : n.leading = n.prefixItems.getD []) (hmc : 0 ≤ n.minContains.getD 0) (ha : ¬ AdditionalItemsFalse n) (ctx : Ctx)
    (hdef : n.minItems.getD 0 = 0 → n.contains = none → ctx.o.defaultArrayMinItems ≤ m) (j : Nat) (st st' : GSt)
    (items : List JVal) (hg : generate ctx j g st = .ok (.arr items) st') : (items.length : Int) ≤ m := by
  obtain ⟨ag, rfl, hp⟩ := array_parts hn h
  have hck := hp.checked
  unfold checkArray at hck
  simp only [zero_getD, hm, Option.getD_some, ← hlead] at hck
  obtain ⟨h1, hck⟩ := getPtr_cons_none hck
  obtain ⟨_, hck⟩ := getPtr_cons_none hck
  obtain ⟨_, hck⟩ := getPtr_cons_none hck
  obtain ⟨h2, hck⟩ := getPtr_cons_none hck
  obtain ⟨h3, -⟩ := getPtr_cons_none hck
  have hlen : goLen n.leading ≤ m := by
    simp only [Option.isSome_some, and_true] at h3
    split at h3
    · cases h3
    · omega
  have hl0 : 0 ≤ goLen n.leading := by unfold goLen; omega
  by_cases hi : ItemsFalse n
  · have := C16_closed_tuple ctx j ag st items st' hg (hp.closed.2 hi)
    rw [this, hp.length]
    exact hlen
  · have heff : effMinContains n = if n.contains.isSome ∧ n.minContains.getD 0 = 0 then 1 else n.minContains.getD 0 := by
      unfold effMinContains
      rw [zero_getD]
      simp only [and_comm]
    have heff0 : 0 ≤ effMinContains n := by
      rw [heff]
      split <;> omega
    have hroom : goLen n.leading + effMinContains n ≤ m := by
      by_cases h0 : goLen n.leading + effMinContains n = 0
      · omega
      · exact assert_none h2 h0 (by omega)
    have hrange : arrayRange n = (getInt [n.minItems.getD 0, effMinContains n],
        getInt [m, getInt [n.minItems.getD 0, effMinContains n] + defaultOffset]) := by
      unfold arrayRange
      rw [open_range hi ha, if_neg (by simp)]
      simp only [zero_getD, hm, Option.getD_some]
    have hmax : ag.maxItems = m := by
      rw [hp.maxItems, hrange]
      dsimp only
      unfold getInt
      rw [if_pos (by omega)]
    have hmin : ag.minItems = if n.minItems.getD 0 ≠ 0 then n.minItems.getD 0 else effMinContains n := by
      rw [hp.minItems, hrange]
      dsimp only
      simp only [getInt]
      split
      · rfl
      · split
        · rfl
        · omega
    have hgl : goLen ag.tuple = goLen n.leading := by
      unfold goLen
      rw [hp.length]
    refine hmax ▸ C15_maxItems ctx j ag st items st' hg (by omega) ?_ ?_ ?_ ?_ ?_
    · rw [hmin, hmax]
      split
      · exact assert_none h1 (by assumption) (by omega)
      · omega
    · rw [hmin, hmax]
      intro h0
      split at h0
      · contradiction
      · refine hdef (by omega) ?_
        rw [heff] at h0
        cases hc : n.contains with
        | none => rfl
        | some x =>
          rw [hc] at h0
          simp only [Option.isSome_some, true_and] at h0
          split at h0 <;> omega
    · intro hc
      rw [hp.minContains, heff]
      have : n.contains.isSome = true := by
        cases hcg : ag.contains with
        | none => exact absurd hcg hc
        | some cg =>
          obtain ⟨x, _, hx, _⟩ := hp.contains cg hcg
          rw [hx]
          rfl
      rw [this]
      simp only [true_and]
      split <;> omega
    · rw [hp.minContains]
      exact heff0
    · rw [hmax, hgl, hp.minContains]
      exact hroom

theorem produced_plain_string {ctx : Ctx} {j : Nat} {v : JVal} (hv : Produced (generate ctx j) (.str {}) v) :
    ∃ t, v = .str t := by
  obtain ⟨st, st', hv⟩ := hv
  obtain ⟨i, hv⟩ := generate_succ hv
  change stringGenerate ctx _ st = _ at hv
  obtain ⟨t, ht, _⟩ := stringGenerate_len rfl rfl (.inl rfl) hv
  exact ⟨t, ht⟩

/-- **C72.** Every item after the leading ones and those of `contains` is a value for the `items` schema, or, in this order,
for `additionalItems` or `unevaluatedItems`, or has the fallback value, or is the warning when unique items are asked
for. -/
theorem C72_further_items (c : PEnv) (k : Nat) (n : SchemaNode) (s s' : PSt) (g : Gen) (hn : OfType n "array")
    (h : (parseRec c (k + 1)).schema n s = .ok (g, none) s') (ctx : Ctx) (j : Nat) (st st' : GSt) (items : List JVal)
    (hg : generate ctx j g st = .ok (.arr items) st') (i : Nat) (v : JVal) (hv : items[i]? = some v)
    (hi : (n.leading.length : Int) + (if n.contains = none then 0 else
      if n.minContains.getD 0 = 0 then 1 else n.minContains.getD 0) ≤ i) (hl : n.leading.length ≤ i) :
    FurtherItem c ctx n v ∨ (n.uniqueItems = some true ∧ v = notUnique ctx) := by
  obtain ⟨ag, rfl, hp⟩ := array_parts hn h
  obtain ⟨j', _, h1 | ⟨_, tup, cont, rest, he, hok⟩⟩ := generate_arr_post ctx j ag st _ st' hg
  · cases h1.1
  · cases he
    have htl : tup.length = n.leading.length := by rw [← hp.length, hok.tuple.length_eq]
    have hcl : (tup ++ cont).length ≤ i := by
      rw [List.length_append, htl]
      cases hd : ag.disallowAdditional with
      | true =>
        rw [(hok.closed hd).1]
        simpa using hl
      | false =>
        rw [hok.contains_len hd]
        unfold containsCount
        cases hcg : ag.contains with
        | none => simpa using hl
        | some cg =>
          obtain ⟨x, m, hx, -⟩ := hp.contains cg hcg
          rw [hx, if_neg (by simp)] at hi
          have hmc : ag.minContains = if n.minContains.getD 0 = 0 then 1 else n.minContains.getD 0 := by
            rw [hp.minContains]
            unfold effMinContains
            rw [zero_getD, hx]
            simp
          dsimp only
          by_cases h0 : n.minContains.getD 0 = 0
          · rw [if_pos h0] at hi hmc
            rw [hmc, if_neg (by decide)]
            omega
          · rw [if_neg h0] at hi hmc
            rw [hmc, if_neg h0]
            omega
    rw [List.getElem?_append_right hcl] at hv
    have hmem := List.mem_of_getElem? hv
    rcases hok.items v hmem with hpr | ⟨hu, hw⟩
    · left
      unfold itemGenOf at hpr
      cases h1 : ag.item with
      | some a =>
        rw [h1] at hpr
        obtain ⟨x, hx, hmade⟩ := hp.item a h1
        obtain ⟨s1, s2, hpr⟩ := hpr
        exact .items hx ⟨a, hmade, j', s1, s2, hpr⟩
      | none =>
        rw [h1] at hpr
        dsimp only at hpr
        cases h2 : ag.additional with
        | some a =>
          rw [h2] at hpr
          obtain ⟨x, hx, hmade⟩ := hp.additional a h2
          obtain ⟨s1, s2, hpr⟩ := hpr
          exact .additional (hp.noItem h1) hx ⟨a, hmade, j', s1, s2, hpr⟩
        | none =>
          rw [h2] at hpr
          dsimp only at hpr
          cases h3 : ag.unevaluated with
          | some a =>
            rw [h3] at hpr
            obtain ⟨x, hx, hmade⟩ := hp.unevaluated a h3
            obtain ⟨s1, s2, hpr⟩ := hpr
            exact .unevaluated (hp.noItem h1) (hp.noAdditional h2) hx ⟨a, hmade, j', s1, s2, hpr⟩
          | none =>
            rw [h3] at hpr
            dsimp only at hpr
            cases hu : ag.unique with
            | true =>
              rw [hu, if_pos rfl] at hpr
              obtain ⟨t, ht⟩ := produced_plain_string hpr
              exact .anyString (hp.noItem h1) (hp.noAdditional h2) (hp.noUnevaluated h3) (hp.unique.1 hu) ht
            | false =>
              rw [hu, if_neg (by simp)] at hpr
              refine .null (hp.noItem h1) (hp.noAdditional h2) (hp.noUnevaluated h3) ?_ (produced_null hpr)
              intro hu'
              rw [hp.unique.2 hu'] at hu
              cases hu
    · exact .inr ⟨hp.unique.1 hu, hw⟩

/-! ## Concrete runs -/

/-- Parse a schema and generate a value for it, with the example world and the default options. -/
def schemaRun (c : PEnv) (n : SchemaNode) : Option JVal :=
  match (parseRec c 8).schema n emptyPSt with
  | .ok (g, none) _ =>
    match generate demoCtx 8 g {} with
    | .ok v _ => some v
    | _ => none
  | _ => none

/-- A successful run is a parse without an error followed by a generation before the cutoff. -/
theorem schemaRun_spec {c : PEnv} {n : SchemaNode} {v : JVal} (h : yields v (schemaRun c n) = true) :
    ∃ g s w st, (parseRec c 8).schema n emptyPSt = .ok (g, none) s ∧ generate demoCtx 8 g {} = .ok w st ∧ v.jeq w = true ∧
      shouldCutoff demoCtx.o (({} : GSt).complexity + 1) = false := by
  unfold schemaRun at h
  split at h
  · rename_i g s hp
    split at h
    · rename_i w st hg
      exact ⟨g, s, w, st, hp, hg, h, by decide +kernel⟩
    · cases h
  · cases h

/-- `{"type": t}` -/
def bareType (t : String) : SchemaNode := { type := some { single := t } }

/-- Two declared properties, a required name that is not declared, further properties allowed, 4 or 5 in all. -/
def boxSchema : SchemaNode :=
  { type := some { single := "object" }, properties := some [("a", bareType "boolean"), ("b", bareType "null")],
    required := some ["a", "z"], minProperties := some 4, maxProperties := some 5,
    additionalProperties := some { schema := some (bareType "boolean") } }

/-- C09, C11, C12, C13: the hypotheses hold of a run with a declared, a marker and a filler property. -/
example : OfType boxSchema "object" ∧ yields (.obj [("a", .bool false), ("z", .str "required_z_10"), ("b", .null),
    ("min_filler_3", .bool true)]) (schemaRun demoEnv boxSchema) = true ∧ ¬ ClosedObject boxSchema ∧
    ∀ i : Nat, s!"min_filler_{i}" ∉ boxSchema.requiredNames ∧ s!"min_filler_{i}" ∉ boxSchema.declared.map Prod.fst ∧
      boxSchema.patterns = [] := by
  refine ⟨⟨⟨rfl, rfl, rfl, rfl, rfl, rfl, rfl, rfl⟩, rfl, rfl, .inl rfl⟩, by decide +kernel, ?_, fun i => ⟨?_, ?_, rfl⟩⟩
  · rintro ⟨d, h1, h2⟩
    cases h1
    cases h2
  · intro h
    change _ ∈ ["a", "z"] at h
    rcases List.mem_cons.1 h with h | h
    · have := congrArg String.toList h
      simp [String.toList_append, toString] at this
    · have := congrArg String.toList (List.mem_singleton.1 h)
      simp [String.toList_append, toString] at this
  · intro h
    change _ ∈ ["a", "b"] at h
    rcases List.mem_cons.1 h with h | h
    · have := congrArg String.toList h
      simp [String.toList_append, toString] at this
    · have := congrArg String.toList (List.mem_singleton.1 h)
      simp [String.toList_append, toString] at this

/-- The same without a `type` and closed. -/
def closedBox : SchemaNode :=
  { boxSchema with type := none, minProperties := some 2, additionalProperties := some { isFalse := true } }

/-- C10: the hypotheses hold, and the type is inferred from the keywords. -/
example : OfType closedBox "object" ∧ ClosedObject closedBox ∧ closedBox.patterns = [] ∧
    yields (.obj [("a", .bool false), ("z", .str "required_z_10"), ("b", .null)]) (schemaRun demoEnv closedBox) = true :=
  ⟨⟨⟨rfl, rfl, rfl, rfl, rfl, rfl, rfl, rfl⟩, rfl, rfl, .inr ⟨rfl, rfl⟩⟩, ⟨_, rfl, rfl⟩, rfl, by decide +kernel⟩

/-- An environment in which the pattern `x` parses. -/
def shelfEnv : PEnv := { demoEnv with rxParse := fun p => if p = ['x'] then some (.literal [120]) else none }

/-- One declared property and one pattern. -/
def patternBox : SchemaNode :=
  { properties := some [("a", bareType "boolean")], patternProperties := some [("x", bareType "boolean")],
    minProperties := some 3 }

/-- C13: a name from a pattern carries a value for the schema of that pattern; a pattern that cannot be used gives null
under the empty name. -/
example : OfType patternBox "object" ∧
    yields (.obj [("a", .bool false), ("x", .bool false), ("min_filler_2", .null)]) (schemaRun shelfEnv patternBox) = true ∧
    yields (.obj [("a", .bool false), ("", .null), ("min_filler_2", .null)]) (schemaRun demoEnv patternBox) = true :=
  ⟨⟨⟨rfl, rfl, rfl, rfl, rfl, rfl, rfl, rfl⟩, rfl, rfl, .inr ⟨rfl, rfl⟩⟩, by decide +kernel, by decide +kernel⟩

/-- Two leading items, two of `contains`, between 5 and 7 in all. -/
def shelfSchema : SchemaNode :=
  { type := some { single := "array" }, prefixItems := some [bareType "boolean", bareType "null"],
    items := some { node := some (bareType "boolean") }, additionalItems := some { schema := some (bareType "null") },
    contains := some {}, minContains := some 2, minItems := some 5, maxItems := some 7 }

/-- C14 - C17, C72: the hypotheses hold of a run with two leading items, two of `contains` and one of `items`. -/
example : OfType shelfSchema "array" ∧ ¬ ItemsFalse shelfSchema ∧ ¬ AdditionalItemsFalse shelfSchema ∧
    shelfSchema.leading = shelfSchema.prefixItems.getD [] ∧
    yields (.arr [.bool true, .null, .bool false, .bool true, .bool true]) (schemaRun demoEnv shelfSchema) = true := by
  refine ⟨⟨⟨rfl, rfl, rfl, rfl, rfl, rfl, rfl, rfl⟩, rfl, rfl, .inl rfl⟩, ?_, ?_, rfl, by decide +kernel⟩
  · rintro ⟨d, h1, h2⟩
    cases h1
    cases h2
  · rintro ⟨d, h1, h2⟩
    cases h1
    cases h2

/-- Three different items, each true or false. -/
def coinSchema : SchemaNode :=
  { minItems := some 3, maxItems := some 3, uniqueItems := some true,
    unevaluatedItems := some { schema := some (bareType "boolean") } }

/-- C18, C72: unique items from `unevaluatedItems`; only two exist, so the warning follows. -/
example : OfType coinSchema "array" ∧ coinSchema.uniqueItems = some true ∧
    yields (.arr [.bool false, .bool true, notUnique demoCtx]) (schemaRun demoEnv coinSchema) = true :=
  ⟨⟨⟨rfl, rfl, rfl, rfl, rfl, rfl, rfl, rfl⟩, rfl, rfl, .inr ⟨rfl, rfl⟩⟩, rfl, by decide +kernel⟩

/-- C16: with `items: false` only the leading items are generated. -/
example : ItemsFalse { shelfSchema with items := some { disallow := true } } ∧
    yields (.arr [.bool true, .null]) (schemaRun demoEnv { shelfSchema with items := some { disallow := true } }) = true :=
  ⟨⟨_, rfl, rfl⟩, by decide +kernel⟩

/-- **C15 fails with `additionalItems: false`**: `maxItems` is not looked at.
`{"type": "array", "additionalItems": false, "maxItems": 2}` gives three items. -/
theorem C15_additionalItems_violation : yields (.arr [.null, .null, .null]) (parseThenGenerate demoEnv demoWorld {}
    (.obj [("type", .str "array"), ("additionalItems", .bool false), ("maxItems", .num 2)])) = true := by
  decide +kernel

/-- **C14 fails with `additionalItems: false`**: `minItems` is not looked at.
`{"type": "array", "prefixItems": [{"type": "null"}], "additionalItems": false, "minItems": 5}` gives one item. -/
theorem C14_additionalItems_violation : yields (.arr [.null]) (parseThenGenerate demoEnv demoWorld {}
    (.obj [("type", .str "array"), ("prefixItems", .arr [.obj [("type", .str "null")]]), ("additionalItems", .bool false),
      ("minItems", .num 5)])) = true := by
  decide +kernel

/-- **C16 fails for `items` written as an array**: `additionalItems: false` does not stop further items.
`{"type": "array", "items": [{"type": "boolean"}], "additionalItems": false}` gives two items. -/
theorem C16_additionalItems_violation : yields (.arr [.bool true, .num 0]) (parseThenGenerate demoEnv demoWorld {}
    (.obj [("type", .str "array"), ("items", .arr [.obj [("type", .str "boolean")]]), ("additionalItems", .bool false)])) =
      true := by
  decide +kernel

/-- **C72 fails for `items` written as an array**: beside the array, decoding leaves an empty schema, which then stands
before `additionalItems`.  `{"type": "array", "items": [{"type": "null"}], "additionalItems": {"type": "boolean"},
"minItems": 3}` gives numbers after the first item. -/
theorem C72_items_array_violation : yields (.arr [.null, .num 0, .num 0, .num 0]) (parseThenGenerate demoEnv demoWorld {}
    (.obj [("type", .str "array"), ("items", .arr [.obj [("type", .str "null")]]),
      ("additionalItems", .obj [("type", .str "boolean")]), ("minItems", .num 3)])) = true := by
  decide +kernel

end Chaff
