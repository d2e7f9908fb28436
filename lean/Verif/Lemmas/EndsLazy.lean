import Verif.Lemmas.EndsAcyclic
/-!
# References that are only followed when a value is generated

A reference is followed while parsing only when its schema is combined with another one.  Elsewhere it may lead anywhere,
also back to itself.
-/

namespace Chaff
open Comp

/-- All schemas of a keyword value. -/
def SlotAll (P : SchemaNode → Prop) : SubVal → Prop
  | .map m => ∀ l, m = some l → ∀ p ∈ l, P p.2
  | .node x => ∀ n, x = some n → P n
  | .nodes l => ∀ l', l = some l' → ∀ n ∈ l', P n
  | .orFalse x => ∀ d n, x = some d → d.schema = some n → P n
  | .items x => ∀ d, x = some d → (∀ n, d.node = some n → P n) ∧ ∀ n ∈ d.nodes.getD [], P n

/-- The schemas directly below one without combining keywords. -/
structure Beneath (P : SchemaNode → Prop) (n : SchemaNode) : Prop where
  properties : SlotAll P (.map n.properties)
  patternProperties : SlotAll P (.map n.patternProperties)
  defs : SlotAll P (.map n.defs)
  definitions : SlotAll P (.map n.definitions)
  additionalProperties : SlotAll P (.orFalse n.additionalProperties)
  additionalItems : SlotAll P (.orFalse n.additionalItems)
  unevaluatedItems : SlotAll P (.orFalse n.unevaluatedItems)
  prefixItems : SlotAll P (.nodes n.prefixItems)
  items : SlotAll P (.items n.items)

/-- No combining keywords. -/
structure Uncombined (n : SchemaNode) : Prop where
  allOf : n.allOf = none
  anyOf : n.anyOf = none
  oneOf : n.oneOf = none
  not : n.not = none
  mergedNot : n.mergedNot = []
  ifN : n.ifN = none
  mergedIf : n.mergedIf = []
  contains : n.contains = none

/-- References that are not allowed are only below schemas without combining keywords. -/
inductive LazyN (bad : String → Nat) : SchemaNode → Prop
  | fine {n : SchemaNode} : Fine bad n → LazyN bad n
  | lower {n : SchemaNode} (uncombined : Uncombined n)
      (properties : ∀ l, n.properties = some l → ∀ p ∈ l, LazyN bad p.2)
      (patternProperties : ∀ l, n.patternProperties = some l → ∀ p ∈ l, LazyN bad p.2)
      (defs : ∀ l, n.defs = some l → ∀ p ∈ l, LazyN bad p.2)
      (definitions : ∀ l, n.definitions = some l → ∀ p ∈ l, LazyN bad p.2)
      (additionalProperties : ∀ d x, n.additionalProperties = some d → d.schema = some x → LazyN bad x)
      (additionalItems : ∀ d x, n.additionalItems = some d → d.schema = some x → LazyN bad x)
      (unevaluatedItems : ∀ d x, n.unevaluatedItems = some d → d.schema = some x → LazyN bad x)
      (prefixItems : ∀ l, n.prefixItems = some l → ∀ x ∈ l, LazyN bad x)
      (itemsNode : ∀ d, n.items = some d → ∀ x, d.node = some x → LazyN bad x)
      (itemsNodes : ∀ d, n.items = some d → ∀ x ∈ d.nodes.getD [], LazyN bad x) : LazyN bad n

theorem LazyN.plain {bad : String → Nat} {n : SchemaNode} (u : Uncombined n) (k : Beneath (LazyN bad) n) : LazyN bad n :=
  .lower u k.properties k.patternProperties k.defs k.definitions k.additionalProperties k.additionalItems k.unevaluatedItems
    k.prefixItems (fun d h => (k.items d h).1) (fun d h => (k.items d h).2)

theorem LazyN.inv {bad : String → Nat} {n : SchemaNode} (h : LazyN bad n) : Fine bad n ∨ (Uncombined n ∧ Beneath (LazyN bad) n) := by
  cases h with
  | fine h => exact .inl h
  | lower u a b c d e f g h i j => exact .inr ⟨u, a, b, c, d, e, f, g, h, fun d hd => ⟨i d hd, j d hd⟩⟩

variable {c : PEnv} {bad w : String → Nat} {B : PSt → Prop} {d : Int} {r : Nat → PRec} {F : SchemaNode → Prop}

/-! ## Parsing -/

/-- What is known about the recursive calls. -/
def NodeEnds (F : SchemaNode → Prop) (B : PSt → Prop) (d : Int) (r : Nat → PRec) : Prop :=
  ∀ n, F n → Ends (At B d) (fun k => (r k).node n) (fun _ => True)

theorem lazy_parseInScope (W : RefWorld c bad w B) (h : NodeEnds F B d r) (scope : String) (n : SchemaNode) (l : List SchemaNode)
    (hn : F n) : Ends (At B d) (fun k => parseInScope c (r k) scope n l) (fun _ => True) := by
  unfold parseInScope
  exact Ends.bind (ends_pushPath W _) fun _ _ => Ends.bind (ends_pushSources W _ _) fun _ _ => Ends.bind (h n hn) fun _ _ =>
    Ends.bind (ends_popSources W _) fun _ _ => Ends.bind (ends_popPath W _) fun _ _ => Ends.pure trivial

theorem lazy_parseItems (W : RefWorld c bad w B) (h : NodeEnds F B d r) (x : Option (ItemsData SchemaNode)) (hx : SlotAll F (.items x)) :
    Ends (At B d) (fun k => parseItems c (r k) x) (fun _ => True) := by
  unfold parseItems
  cases x with
  | none => exact Ends.pure trivial
  | some x =>
    dsimp only
    refine Ends.ite (fun _ => Ends.pure trivial) fun _ => ?_
    cases hy : x.node with
    | none => exact Ends.pure trivial
    | some y => exact ends_asSub (lazy_parseInScope W h _ _ _ ((hx x rfl).1 y hy))

theorem lazy_parseOrFalse (W : RefWorld c bad w B) (h : NodeEnds F B d r) (scope : String) (x : Option (NodeOrFalse SchemaNode))
    (hx : SlotAll F (.orFalse x)) : Ends (At B d) (fun k => parseOrFalse c (r k) scope x) (fun _ => True) := by
  unfold parseOrFalse
  cases x with
  | none => exact Ends.pure trivial
  | some x =>
    dsimp only
    cases hy : x.schema with
    | none => exact Ends.pure trivial
    | some y => exact ends_asSub (lazy_parseInScope W h _ _ _ (hx x y rfl hy))

theorem lazy_parseTuple (W : RefWorld c bad w B) (h : NodeEnds F B d r) : ∀ (l : List SchemaNode) (i : Nat), (∀ x ∈ l, F x) →
    Ends (At B d) (fun k => parseTuple c (r k) i l) (fun _ => True) := by
  intro l
  induction l with
  | nil => intro i _; exact Ends.pure trivial
  | cons x t ih =>
    intro i hl
    unfold parseTuple
    refine Ends.bind (lazy_parseInScope W h _ _ _ (hl x (List.mem_cons_self ..))) fun g _ => ?_
    split
    · exact Ends.pure trivial
    · refine Ends.bind (ih _ fun y hy => hl y (List.mem_cons_of_mem _ hy)) fun x _ => ?_
      cases x <;> exact Ends.pure trivial

theorem lazy_tupleNodes {n : SchemaNode} (hk : Beneath F n) : ∀ x ∈ tupleNodes n, F x := by
  unfold tupleNodes
  split
  · rename_i x l hl
    exact hk.prefixItems _ hl
  · split
    · rename_i i hi
      exact (hk.items i hi).2
    · exact nofun

theorem lazy_parseArray (W : RefWorld c bad w B) (h : NodeEnds F B d r) (n : SchemaNode) (hk : Beneath F n) (hc : n.contains = none) :
    Ends (At B d) (fun k => parseArray c (r k) n) (fun _ => True) := by
  unfold parseArray
  split
  · exact ends_nullErr _
  · refine Ends.bind (lazy_parseItems W h _ hk.items) fun x1 _ => ?_
    cases x1 with
    | error e => exact ends_nullErr _
    | ok x1 =>
      refine Ends.bind (lazy_parseOrFalse W h _ _ hk.additionalItems) fun x2 _ => ?_
      cases x2 with
      | error e => exact ends_nullErr _
      | ok x2 =>
        refine Ends.bind (Q := fun _ => True) ?_ fun x3 _ => ?_
        · unfold parseContains
          rw [hc]
          exact Ends.pure trivial
        cases x3 with
        | error e => exact ends_nullErr _
        | ok x3 =>
          refine Ends.bind (lazy_parseTuple W h _ _ (lazy_tupleNodes hk)) fun x4 _ => ?_
          cases x4 with
          | error e => exact ends_nullErr _
          | ok x4 =>
            refine Ends.bind (lazy_parseOrFalse W h _ _ ?_) fun x5 _ => ?_
            · unfold unevaluatedSchema
              split
              · rename_i x hx
                split
                · nofun
                · rw [← hx]; exact hk.unevaluatedItems
              · nofun
            · cases x5 with
              | error e => exact ends_nullErr _
              | ok x5 => exact ends_okGen _

theorem lazy_parseProps (W : RefWorld c bad w B) (h : NodeEnds F B d r) : ∀ (l : List (String × SchemaNode)), (∀ p ∈ l, F p.2) →
    Ends (At B d) (fun k => parseProps c (r k) l) (fun _ => True) := by
  intro l
  induction l with
  | nil => intro _; exact Ends.pure trivial
  | cons x t ih =>
    obtain ⟨k, n⟩ := x
    intro hl
    unfold parseProps
    exact Ends.bind (lazy_parseInScope W h _ _ _ (hl (k, n) (List.mem_cons_self ..))) fun g _ =>
      Ends.bind (ih fun y hy => hl y (List.mem_cons_of_mem _ hy)) fun _ _ => Ends.pure trivial

theorem lazy_parsePatProps (W : RefWorld c bad w B) (h : NodeEnds F B d r) : ∀ (l : List (String × SchemaNode)), (∀ p ∈ l, F p.2) →
    Ends (At B d) (fun k => parsePatProps c (r k) l) (fun _ => True) := by
  intro l
  induction l with
  | nil => intro _; exact Ends.pure trivial
  | cons x t ih =>
    obtain ⟨k, n⟩ := x
    intro hl
    unfold parsePatProps
    exact Ends.bind (lazy_parseInScope W h _ _ _ (hl (k, n) (List.mem_cons_self ..))) fun g _ =>
      Ends.bind (ends_patternRegex W _) fun _ _ =>
      Ends.bind (ih fun y hy => hl y (List.mem_cons_of_mem _ hy)) fun _ _ => Ends.pure trivial

theorem lazy_parseAddProps (W : RefWorld c bad w B) (h : NodeEnds F B d r) (x : Option (NodeOrFalse SchemaNode))
    (hx : SlotAll F (.orFalse x)) : Ends (At B d) (fun k => parseAddProps c (r k) x) (fun _ => True) := by
  unfold parseAddProps
  cases x with
  | none => exact Ends.pure trivial
  | some x =>
    dsimp only
    refine Ends.ite (fun _ => Ends.pure trivial) fun _ => ?_
    cases hy : x.schema with
    | none => exact Ends.pure trivial
    | some y => exact Ends.bind (lazy_parseInScope W h _ _ _ (hx x y rfl hy)) fun _ _ => Ends.pure trivial

theorem slot_zero {m : Option (List (String × SchemaNode))} (h : SlotAll F (.map m)) : ∀ p ∈ getZeroIfNil m [], F p.2 := by
  cases m with
  | none => nofun
  | some l => exact h l rfl

theorem lazy_parseObject (W : RefWorld c bad w B) (h : NodeEnds F B d r) (n : SchemaNode) (hk : Beneath F n) :
    Ends (At B d) (fun k => parseObject c (r k) n) (fun _ => True) := by
  unfold parseObject
  split
  · exact ends_nullErr _
  · exact Ends.bind (lazy_parsePatProps W h _ (slot_zero hk.patternProperties)) fun _ _ =>
      Ends.bind (lazy_parseProps W h _ (slot_zero hk.properties)) fun _ _ =>
      Ends.bind (lazy_parseAddProps W h _ hk.additionalProperties) fun _ _ => ends_okGen _

theorem lazy_parseType (W : RefWorld c bad w B) (h : NodeEnds F B d r) (t : String) (n : SchemaNode) (hk : Beneath F n)
    (hc : n.contains = none) : Ends (At B d) (fun k => parseType c (r k) t n) (fun _ => True) := by
  unfold parseType
  exact Ends.ite (fun _ => lazy_parseObject W h n hk) fun _ => Ends.ite (fun _ => lazy_parseArray W h n hk hc) fun _ =>
    Ends.ite (fun _ => ends_parseNumberNode _ _) fun _ => Ends.ite (fun _ => ends_parseNumberNode _ _) fun _ =>
    Ends.ite (fun _ => ends_parseString _) fun _ => Ends.ite (fun _ => ends_okGen _) fun _ => ends_okGen _

theorem lazy_parseTypes (W : RefWorld c bad w B) (h : NodeEnds F B d r) (n : SchemaNode) (hk : Beneath F n)
    (hc : n.contains = none) : ∀ l : List String, Ends (At B d) (fun k => parseTypes c (r k) n l) (fun _ => True) := by
  intro l
  induction l with
  | nil => exact Ends.pure trivial
  | cons x t ih =>
    unfold parseTypes
    exact Ends.bind (lazy_parseType W h _ n hk hc) fun _ _ => Ends.bind ih fun _ _ => Ends.pure trivial

theorem lazy_parseByType (W : RefWorld c bad w B) (h : NodeEnds F B d r) (n : SchemaNode) (hk : Beneath F n) (hc : n.contains = none) :
    Ends (At B d) (fun k => parseByType c (r k) n) (fun _ => True) := by
  unfold parseByType
  split
  · unfold parseMultipleType
    exact Ends.bind (lazy_parseTypes W h n hk hc _) fun _ _ => ends_okGen _
  · refine Ends.ite (fun _ => lazy_parseType W h _ n hk hc) fun _ => Ends.ite (fun _ => ?_) fun _ => lazy_parseType W h _ n hk hc
    unfold parseMultipleType
    refine Ends.bind (lazy_parseTypes W h _ ?_ ?_ _) fun _ _ => ends_okGen _
    · exact ⟨hk.1, hk.2, hk.3, hk.4, hk.5, hk.6, hk.7, hk.8, hk.9⟩
    · exact hc

/-- Every reference can be put off. -/
def Defers (c : PEnv) (B : PSt → Prop) : Prop :=
  ∀ ref d, Ends (fun s => B s ∧ s.depth = d) (fun _ => handleDeferred c ref) (fun _ => True)

theorem lazy_parseSchemaStep (W : RefWorld c bad w B) (hdef : Defers c B) (h : NodeEnds F B d r) (n : SchemaNode)
    (hu : Uncombined n) (hk : Beneath F n) : Ends (At B d) (fun k => parseSchemaStep c (r k) n) (fun _ => True) := by
  unfold parseSchemaStep
  split
  · exact ends_nullErr _
  · cases hr : n.ref with
    | some ref =>
      dsimp only
      unfold parseReference
      refine Ends.ite (fun _ => Ends.pure trivial) fun _ => Ends.bind (hdef ref d) fun x _ => ?_
      cases x with
      | error e => exact Ends.pure trivial
      | ok p => exact ends_okGen _
    | none =>
      dsimp only
      rw [hu.allOf]
      dsimp only
      refine Ends.ite (fun hx => ?_) fun _ => Ends.ite (fun hx => ?_) fun _ => Ends.ite (fun hx => ?_) fun _ => ?_
      · rw [hu.oneOf, hu.anyOf] at hx; simp at hx
      · rw [hu.not, hu.mergedNot] at hx; simp at hx
      · rw [hu.ifN, hu.mergedIf] at hx; simp at hx
      split
      · exact ends_parseEnum W _ _
      · split
        · exact ends_parseConst W _ _
        · exact lazy_parseByType W h n hk hu.contains

theorem lazy_parse (W : RefWorld c bad w B) (hdef : Defers c B) : ∀ (D : Nat) (d : Int), c.maxParseDepth - d ≤ D →
    NodeEnds (LazyN bad) B d (fun k => parseRec c k) := by
  intro D
  induction D with
  | zero =>
    intro d hd n hn
    refine Ends.shift ?_
    exact ends_parseNodeStep W n fun h => absurd h (by omega)
  | succ D ih =>
    intro d hd n hn
    rcases hn.inv with hn | ⟨hu, hk⟩
    · exact ends_parseNode W n hn
    · refine Ends.shift ?_
      refine ends_parseNodeStep W n fun _ => Ends.shift ?_
      exact lazy_parseSchemaStep W hdef (ih (d + 1) (by omega)) n hu hk

theorem lazy_node (W : RefWorld c bad w B) (hdef : Defers c B) : NodeEnds (LazyN bad) B d (fun k => parseRec c k) :=
  lazy_parse W hdef (c.maxParseDepth - d).toNat d (by omega)

theorem lazy_parseDefs (W : RefWorld c bad w B) (hdef : Defers c B) (kw : String) : ∀ l : List (String × SchemaNode), (∀ p ∈ l, LazyN bad p.2) →
    Ends (At B d) (fun k => parseDefs c (parseRec c k) kw l) (fun _ => True) := by
  intro l
  induction l with
  | nil => intro _; exact Ends.pure trivial
  | cons x t ih =>
    obtain ⟨k, n⟩ := x
    intro hl
    unfold parseDefs
    exact Ends.bind (lazy_parseInScope W (lazy_node W hdef) _ _ _ (hl (k, n) (List.mem_cons_self ..))) fun _ _ =>
      ih fun y hy => hl y (List.mem_cons_of_mem _ hy)

theorem lazy_parseRoot (W : RefWorld c bad w B) (hdef : Defers c B) (n : SchemaNode) (hn : LazyN bad n) :
    Ends (At B d) (fun k => parseRoot c (parseRec c k) n) (fun _ => True) := by
  rcases hn.inv with hn | ⟨hu, hk⟩
  · exact ends_parseRoot W n hn
  · unfold parseRoot
    exact Ends.bind (lazy_parseDefs W hdef _ _ (slot_zero hk.defs)) fun _ _ =>
      Ends.bind (lazy_parseDefs W hdef _ _ (slot_zero hk.definitions)) fun _ _ => lazy_node W hdef n (.plain hu hk)

theorem defers_offline {key : String} {root : SchemaNode} : Defers c (OneDoc key root) := by
  intro ref d
  refine Ends.const fun s hs => ?_
  rcases defer_offline (c := c) hs.1 ref with ⟨e, he⟩ | ⟨q, he⟩
  · rw [he]; exact ⟨nofun, nofun⟩
  · rw [he]
    refine ⟨nofun, fun a s' e => ?_⟩
    cases e
    exact ⟨trivial, ⟨hs.1.docs, hs.1.aliases, hs.1.http, hs.1.file, hs.1.parsing, hs.1.resolving, hs.1.res⟩, hs.2⟩

/-! ## Decoding -/

theorem slot_fine {x : SubVal} (h : slotWt 0 bad x = 0) : SlotAll (Fine bad) x := by
  cases x with
  | map m =>
    intro l hl p hp
    subst hl
    have := wtM_mem (e := 0) (w := bad) (k := p.1) (n := p.2) hp
    simp only [slotWt, wtOM_some] at h
    show wt 0 bad p.2 = 0
    omega
  | node x =>
    intro n hn
    subst hn
    simp only [slotWt, wtIf_some] at h
    show wt 0 bad n = 0
    omega
  | nodes l =>
    intro l' hl n hn
    subst hl
    have := wtL_mem (e := 0) (w := bad) hn
    simp only [slotWt, wtOL_some] at h
    show wt 0 bad n = 0
    omega
  | orFalse x =>
    intro y n hx hn
    subst hx
    simp only [slotWt, wtOF_some, hn, wtO_some] at h
    show wt 0 bad n = 0
    omega
  | items x =>
    intro y hx
    subst hx
    simp only [slotWt, wtOI_some] at h
    refine ⟨fun n hn => ?_, fun n hn => ?_⟩
    · rw [hn, wtO_some] at h
      show wt 0 bad n = 0
      omega
    · cases hy : y.nodes with
      | none => rw [hy] at hn; cases hn
      | some l =>
        rw [hy] at hn
        have := wtL_mem (e := 0) (w := bad) (show n ∈ l from hn)
        rw [hy, wtOL_some] at h
        show wt 0 bad n = 0
        omega

theorem SlotAll.mono {P Q : SchemaNode → Prop} (h : ∀ n, P n → Q n) {x : SubVal} (hx : SlotAll P x) : SlotAll Q x := by
  cases x with
  | map m => exact fun l hl p hp => h _ (hx l hl p hp)
  | node x => exact fun n hn => h _ (hx n hn)
  | nodes l => exact fun l' hl n hn => h _ (hx l' hl n hn)
  | orFalse x => exact fun y n hy hn => h _ (hx y n hy hn)
  | items x => exact fun y hy => ⟨fun n hn => h _ ((hx y hy).1 n hn), fun n hn => h _ ((hx y hy).2 n hn)⟩

theorem beneath_empty (P : SchemaNode → Prop) : Beneath P emptyNode := by
  constructor <;> exact nofun

theorem uncombined_empty : Uncombined emptyNode := ⟨rfl, rfl, rfl, rfl, rfl, rfl, rfl, rfl⟩

theorem setSub_plain {P : SchemaNode → Prop} {n : SchemaNode} {sk : SubKey} {x : SubVal} (hk : sk.name ∉ combiningKeywords)
    (hu : Uncombined n) (hn : Beneath P n) (hx : SlotAll P x) : Uncombined (setSub n sk x) ∧ Beneath P (setSub n sk x) := by
  obtain ⟨u1, u2, u3, u4, u5, u6, u7, u8⟩ := hu
  obtain ⟨k1, k2, k3, k4, k5, k6, k7, k8, k9⟩ := hn
  cases sk <;> first
    | exact absurd (by decide) hk
    | (cases x <;> exact ⟨⟨u1, u2, u3, u4, u5, u6, u7, u8⟩, ⟨by assumption, by assumption, by assumption, by assumption,
        by assumption, by assumption, by assumption, by assumption, by assumption⟩⟩)

/-- What is known of a text from which schemas are decoded. -/
def DecodesLazy (bad : String → Nat) (S : String → Prop) (v : JVal) : Prop :=
  FreeOutside S v → (∀ n, decodeNode v = some n → LazyN bad n) ∧
    ∀ sh x, (∀ l, v = .arr l → ∀ y ∈ l, FreeOutside S y) → decodeSub sh v = some x → SlotAll (LazyN bad) x

theorem decodeMap_all {P : SchemaNode → Prop} : ∀ {m : List (String × JVal)} {l : List (String × SchemaNode)},
    (∀ p ∈ m, ∀ n, decodeNode p.2 = some n → P n) → decodeMap m = some l → ∀ p ∈ l, P p.2 := by
  intro m
  induction m with
  | nil => intro l _ h; unfold decodeMap at h; simp at h; subst h; exact nofun
  | cons p t ih =>
    intro l hd h
    obtain ⟨k, v⟩ := p
    unfold decodeMap decodePair at h
    cases h1 : decodeNode v with
    | none => rw [h1] at h; simp at h
    | some x =>
      rw [h1] at h
      cases h2 : decodeMap t with
      | none => rw [h2] at h; simp at h
      | some r =>
        rw [h2] at h
        simp at h
        subst h
        intro q hq
        rcases List.mem_cons.1 hq with rfl | hq
        · exact hd (k, v) (List.mem_cons_self ..) _ h1
        · exact ih (fun y hy => hd y (List.mem_cons_of_mem _ hy)) h2 q hq

theorem decodeList_all {P : SchemaNode → Prop} : ∀ {m : List JVal} {l : List SchemaNode},
    (∀ p ∈ m, ∀ n, decodeNode p = some n → P n) → decodeList m = some l → ∀ p ∈ l, P p := by
  intro m
  induction m with
  | nil => intro l _ h; unfold decodeList at h; simp at h; subst h; exact nofun
  | cons v t ih =>
    intro l hd h
    unfold decodeList at h
    cases h1 : decodeNode v with
    | none => rw [h1] at h; simp at h
    | some x =>
      rw [h1] at h
      cases h2 : decodeList t with
      | none => rw [h2] at h; simp at h
      | some r =>
        rw [h2] at h
        simp at h
        subst h
        intro q hq
        rcases List.mem_cons.1 hq with rfl | hq
        · exact hd v (List.mem_cons_self ..) _ h1
        · exact ih (fun y hy => hd y (List.mem_cons_of_mem _ hy)) h2 q hq

theorem decodeFields_plain {P : SchemaNode → Prop} : ∀ {m : List (String × JVal)} {n n' : SchemaNode},
    (∀ p ∈ m, p.1 ∉ combiningKeywords) → (∀ p ∈ m, ∀ sh x, decodeSub sh p.2 = some x → SlotAll P x) → Uncombined n → Beneath P n →
    decodeFields m n = some n' → Uncombined n' ∧ Beneath P n' := by
  intro m
  induction m with
  | nil => intro n n' _ _ hu hb h; unfold decodeFields at h; simp at h; subst h; exact ⟨hu, hb⟩
  | cons p t ih =>
    intro n n' hk hs hu hb h
    unfold decodeFields at h
    cases h1 : decodeField p n with
    | none => rw [h1] at h; simp at h
    | some x =>
      rw [h1] at h
      have hx : Uncombined x ∧ Beneath P x := by
        obtain ⟨k, v⟩ := p
        unfold decodeField at h1
        cases hn : SubKey.ofName k with
        | none =>
          rw [hn] at h1
          dsimp only at h1
          cases hd : decBaseField n.toNodeBase k v with
          | none => rw [hd] at h1; simp at h1
          | some b =>
            rw [hd] at h1; simp at h1; subst h1
            exact ⟨⟨hu.1, hu.2, hu.3, hu.4, hu.5, hu.6, hu.7, hu.8⟩, ⟨hb.1, hb.2, hb.3, hb.4, hb.5, hb.6, hb.7, hb.8, hb.9⟩⟩
        | some sk =>
          rw [hn] at h1
          dsimp only at h1
          cases hd : decodeSub sk.shape v with
          | none => rw [hd] at h1; simp at h1
          | some y =>
            rw [hd] at h1; simp at h1; subst h1
            refine setSub_plain ?_ hu hb (hs (k, v) (List.mem_cons_self ..) _ _ hd)
            rw [ofName_name hn]
            exact hk (k, v) (List.mem_cons_self ..)
      exact ih (fun q hq => hk q (List.mem_cons_of_mem _ hq)) (fun q hq => hs q (List.mem_cons_of_mem _ hq)) hx.1 hx.2 h

theorem decodesLazy {S : String → Prop} (hS : ∀ r, S r → bad r = 0) : ∀ (k : Nat) (v : JVal), sizeOf v ≤ k → DecodesLazy bad S v := by
  intro k
  induction k with
  | zero => intro v hv; cases v <;> simp at hv
  | succ k ih =>
    intro v hk hv
    have settled : ∀ v : JVal, (∀ r ∈ refTexts v, S r) → ∀ n, decodeNode v = some n → LazyN bad n := fun v hr n hn =>
      .fine (Nat.le_zero.1 (le_of_le_of_eq (decode_wt hn) (jw_zero v fun r h => hS r (hr r h))))
    cases v with
    | null =>
      refine ⟨settled _ nofun, fun sh x _ h => ?_⟩
      cases sh <;> unfold decodeSub at h <;> simp at h <;> subst h <;> exact nofun
    | bool b =>
      refine ⟨settled _ nofun, fun sh x _ h => ?_⟩
      cases sh <;> cases b <;> unfold decodeSub at h <;> simp at h <;> subst h <;> simp only [SlotAll] <;>
        first
        | (intro d n hd hn; cases hd; first | cases hn | (cases hn; exact .plain uncombined_empty (beneath_empty _)))
        | (intro d hd; cases hd; refine ⟨fun n hn => ?_, nofun⟩; first | cases hn | (cases hn; exact .plain uncombined_empty (beneath_empty _)))
    | num q =>
      refine ⟨settled _ nofun, fun sh x _ h => ?_⟩
      cases sh <;> unfold decodeSub at h <;> simp at h
    | str q =>
      refine ⟨settled _ nofun, fun sh x _ h => ?_⟩
      cases sh <;> unfold decodeSub at h <;> simp at h
    | arr l =>
      refine ⟨settled _ nofun, fun sh x hl h => ?_⟩
      have hs : ∀ p ∈ l, ∀ n, decodeNode p = some n → LazyN bad n := fun p hp => (ih p (by
        have := List.sizeOf_lt_of_mem hp
        simp only [JVal.arr.sizeOf_spec] at hk; omega) (hl l rfl p hp)).1
      cases sh <;> unfold decodeSub at h <;> simp at h
      · obtain ⟨r, h1, rfl⟩ := h
        intro l' hl'
        cases hl'
        exact decodeList_all hs h1
      · obtain ⟨r, h1, rfl⟩ := h
        intro d hd
        cases hd
        refine ⟨fun n hn => ?_, decodeList_all hs h1⟩
        cases hn
        exact .plain uncombined_empty (beneath_empty _)
    | obj m =>
      have hm : (∀ n, decodeFields m emptyNode = some n → LazyN bad n) ∧ ∀ l, decodeMap m = some l → ∀ p ∈ l, LazyN bad p.2 := by
        have size : ∀ p ∈ m, sizeOf p.2 ≤ k := fun p hp => by
          have h1 := List.sizeOf_lt_of_mem hp
          have h2 : sizeOf p.2 < sizeOf p := by cases p; simp only [Prod.mk.sizeOf_spec]; omega
          simp only [JVal.obj.sizeOf_spec] at hk; omega
        have hv' : (∀ r ∈ refTexts (.obj m), S r) ∨ ((∀ p ∈ m, p.1 ∉ combiningKeywords) ∧ (∀ p ∈ m, FreeOutside S p.2) ∧
            ∀ p ∈ m, ∀ l, p.2 = .arr l → ∀ x ∈ l, FreeOutside S x) := by
          cases hv with
          | settled _ hr => exact .inl hr
          | plain _ a b d => exact .inr ⟨a, b, d⟩
        rcases hv' with hr | ⟨h1, h2, h3⟩
        · refine ⟨fun n hn => settled _ hr n (by unfold decodeNode; exact hn), fun l hl p hp => ?_⟩
          refine decodeMap_all (P := LazyN bad) (fun q hq n hn => settled _ (fun r hr' => hr r ?_) n hn) hl p hp
          exact refTextsObj_mem hq r (refTexts_sub _ _ r hr')
        · have hd := fun p hp => ih p.2 (size p hp) (h2 p hp)
          refine ⟨fun n hn => ?_, fun l hl => decodeMap_all (fun q hq => (hd q hq).1) hl⟩
          obtain ⟨a, b⟩ := decodeFields_plain (P := LazyN bad) h1 (fun p hp sh x => (hd p hp).2 sh x (h3 p hp)) uncombined_empty
            (beneath_empty _) hn
          exact .plain a b
      refine ⟨fun n h => ?_, fun sh x _ h => ?_⟩
      · unfold decodeNode at h; exact hm.1 n h
      · cases sh <;> unfold decodeSub at h <;> simp at h
        · obtain ⟨r, h1, rfl⟩ := h
          intro l hl
          cases hl
          exact hm.2 _ h1
        · obtain ⟨r, h1, rfl⟩ := h
          intro n hn
          cases hn
          exact hm.1 _ h1
        · obtain ⟨r, h1, rfl⟩ := h
          intro d n hd hn
          cases hd
          cases hn
          exact hm.1 _ h1
        · obtain ⟨r, h1, rfl⟩ := h
          intro d hd
          cases hd
          refine ⟨fun n hn => ?_, nofun⟩
          cases hn
          exact hm.1 _ h1

theorem decode_lazy {S : String → Prop} (hS : ∀ r, S r → bad r = 0) {v : JVal} {n : SchemaNode} (hv : FreeOutside S v)
    (h : decodeNode v = some n) : LazyN bad n :=
  (decodesLazy hS _ v (Nat.le_refl _) hv).1 n h

end Chaff
