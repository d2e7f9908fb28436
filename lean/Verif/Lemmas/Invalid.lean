import Verif.Spec.Valid
import Mathlib.Data.List.Perm.Subperm
/-!
# Validity and invalidity
-/

namespace Chaff

variable {pat : String → String → Prop} {root : SchemaNode}

theorem Covered.rest {n : SchemaNode} (h : Covered n) : Covered { n with oneOf := none, ifN := none, not := none } :=
  ⟨rfl, rfl, rfl, h.4, h.5, h.6, h.7, h.8, h.9, h.10, h.11, h.12, h.13⟩

/-- Validity against a schema without `oneOf`, `if` and `not`. -/
theorem Valid.basic (n : SchemaNode) (v : JVal) (target alternative : SchemaNode) (found : List JVal)
    (covered : Covered n)
    (localOk : LocalOk pat n v)
    (refTarget : ∀ r, n.ref = some r → Refers root r target)
    (ref : ∀ r, n.ref = some r → Valid pat root target v)
    (allOf : ∀ l sub, n.allOf = some l → sub ∈ l → Valid pat root sub v)
    (anyOfMember : ∀ l, n.anyOf = some l → alternative ∈ l)
    (anyOf : ∀ l, n.anyOf = some l → Valid pat root alternative v)
    (properties : ∀ m p k x sub, v = .obj m → n.properties = some p → (k, x) ∈ m → lookupKV p k = some sub →
      Valid pat root sub x)
    (patternProperties : ∀ m p k x rx sub, v = .obj m → n.patternProperties = some p → (k, x) ∈ m → (rx, sub) ∈ p →
      pat rx k → Valid pat root sub x)
    (additional : ∀ m d k x sub, v = .obj m → n.additionalProperties = some d → d.schema = some sub → (k, x) ∈ m →
      Extra pat n k → Valid pat root sub x)
    (prefixItems : ∀ l p (i : Nat) x sub, v = .arr l → n.prefixItems = some p → l[i]? = some x → p[i]? = some sub →
      Valid pat root sub x)
    (items : ∀ l d (i : Nat) x sub, v = .arr l → n.items = some d → d.node = some sub → prefixLength n ≤ i → l[i]? = some x →
      Valid pat root sub x)
    (containsSome : ∀ l c, v = .arr l → n.contains = some c → found.Sublist l ∧
      n.minContains.getD 1 ≤ (found.length : Int))
    (contains : ∀ l c x, v = .arr l → n.contains = some c → x ∈ found → Valid pat root c x) :
    Valid pat root n v := by
  refine .intro n v target alternative found covered.rest localOk refTarget ref allOf anyOfMember anyOf properties
    patternProperties additional prefixItems items containsSome contains 0 ?_ ?_ ?_ true ?_ ?_ ?_ ?_ ?_
  all_goals first
    | (rw [covered.not]; nofun)
    | (rw [covered.oneOf]; nofun)
    | (rw [covered.ifN]; nofun)

theorem few_found {P : JVal → Prop} {l rest others found : List JVal} (hs : found.Sublist l) (hp : l.Perm (rest ++ others))
    (h1 : ∀ x ∈ found, P x) (h2 : ∀ x ∈ rest, ¬ P x) : found.length ≤ others.length := by
  classical
  have h := (hs.subperm.trans hp.subperm).filter (fun x => decide (P x))
  rw [List.filter_append, List.filter_eq_self.2 (fun x hx => decide_eq_true (h1 x hx)),
    List.filter_eq_nil_iff.2 (fun x hx => by simpa using h2 x hx), List.nil_append] at h
  exact h.length_le.trans (List.length_filter_le _ _)

/-- No value is valid and invalid. -/
theorem Valid.not_invalid {n : SchemaNode} {v : JVal} (h : Valid pat root n v) : ¬ Invalid pat root n v := by
  refine Valid.rec (motive_1 := fun n v _ => ¬ Invalid pat root n v) (motive_2 := fun n v _ => ¬ Valid pat root n v)
    ?_ ?_ ?_ ?_ ?_ ?_ ?_ ?_ ?_ ?_ ?_ ?_ ?_ ?_ ?_ ?_ h
  · intro n v target alternative found _ hl ht _ _ hany _ _ _ _ _ _ hc _ chosen hch _ _ holds _ _ _ _ _
      ih1 ih2 ih3 ih4 ih5 ih6 ih7 ih8 ih9 ih10 ih11 ih12 ih13 ih14 ih15 ih16 hi
    cases hi with
    | alone h => exact h hl
    | ref r has _ broken => exact ih1 r has (broken _ (ht r has))
    | allOf l has mem broken => exact ih2 l _ has mem broken
    | anyOf l has broken => exact ih3 l has (broken _ (hany l has))
    | oneOfNone l has broken =>
      exact ih10 l _ has (List.getElem?_eq_getElem (hch l has)) (broken _ (List.getElem_mem _))
    | oneOfTwo l i j has apart first second h1 h2 =>
      by_cases hi : i = chosen
      · exact ih11 l _ j has second (fun h => apart (hi.trans h.symm)) h2
      · exact ih11 l _ i has first hi h1
    | thenBroken has then_ h1 h2 =>
      cases holds with
      | true => exact ih14 _ _ has then_ rfl h2
      | false => exact ih13 _ has rfl h1
    | elseBroken has else_ h1 h2 =>
      cases holds with
      | true => exact ih12 _ has rfl h1
      | false => exact ih15 _ _ has else_ rfl h2
    | properties has mem sch broken => exact ih4 _ _ _ _ _ rfl has mem sch broken
    | patternProperties has mem sch fits broken => exact ih5 _ _ _ _ _ _ rfl has mem sch fits broken
    | additional has sch mem extra broken => exact ih6 _ _ _ _ _ rfl has sch mem extra broken
    | prefixItems has item sch broken => exact ih7 _ _ _ _ _ rfl has item sch broken
    | items has sch after item broken => exact ih8 _ _ _ _ _ rfl has sch after item broken
    | contains has parts few broken =>
      obtain ⟨h1, h2⟩ := hc _ _ rfl has
      have := few_found (P := fun x => ¬ Invalid pat root _ x) h1 parts (fun x hx => ih9 _ _ x rfl has hx)
        (fun x hx h => h (broken x hx))
      omega
    | negation has holds => exact ih16 _ has holds
  · intro n v h hv
    cases hv with | intro _ _ _ _ _ _ hl => exact h hl
  · intro n t v r has _ _ ih hv
    cases hv with | intro _ _ target _ _ _ _ ht hr => exact ih _ (ht r has) (hr r has)
  · intro n sub v l has mem _ ih hv
    cases hv with | intro _ _ _ _ _ _ _ _ _ ha => exact ih (ha l sub has mem)
  · intro n v l has _ ih hv
    cases hv with | intro _ _ _ _ _ _ _ _ _ _ h1 h2 => exact ih _ (h1 l has) (h2 l has)
  · intro n v l has _ ih hv
    cases hv with | intro _ _ _ _ _ _ _ _ _ _ _ _ _ _ _ _ _ _ _ chosen h1 h2 =>
      exact ih _ (List.getElem_mem _) (h2 l _ has (List.getElem?_eq_getElem (h1 l has)))
  · intro n x y v l i j has apart first second _ _ ih1 ih2 hv
    cases hv with | intro _ _ _ _ _ _ _ _ _ _ _ _ _ _ _ _ _ _ _ chosen h1 h2 h3 =>
      by_cases hi : i = chosen
      · exact ih2 (h3 l _ j has second (fun h => apart (hi.trans h.symm)))
      · exact ih1 (h3 l _ i has first hi)
  · intro n x y v has then_ _ _ ih1 ih2 hv
    cases hv with | intro _ _ _ _ _ _ _ _ _ _ _ _ _ _ _ _ _ _ _ _ _ _ _ holds h1 h2 h3 h4 =>
      cases holds with
      | true => exact ih2 (h3 _ _ has then_ rfl)
      | false => exact ih1 (h2 _ has rfl)
  · intro n x y v has else_ _ _ ih1 ih2 hv
    cases hv with | intro _ _ _ _ _ _ _ _ _ _ _ _ _ _ _ _ _ _ _ _ _ _ _ holds h1 h2 h3 h4 =>
      cases holds with
      | true => exact ih1 (h1 _ has rfl)
      | false => exact ih2 (h4 _ _ has else_ rfl)
  · intro n sub m p k x has mem sch _ ih hv
    cases hv with | intro _ _ _ _ _ _ _ _ _ _ _ _ h => exact ih (h _ _ _ _ _ rfl has mem sch)
  · intro n sub m p k rx x has mem sch fits _ ih hv
    cases hv with | intro _ _ _ _ _ _ _ _ _ _ _ _ _ h => exact ih (h _ _ _ _ _ _ rfl has mem sch fits)
  · intro n sub m d k x has sch mem extra _ ih hv
    cases hv with | intro _ _ _ _ _ _ _ _ _ _ _ _ _ _ h => exact ih (h _ _ _ _ _ rfl has sch mem extra)
  · intro n sub l p i x has item sch _ ih hv
    cases hv with | intro _ _ _ _ _ _ _ _ _ _ _ _ _ _ _ h => exact ih (h _ _ _ _ _ rfl has item sch)
  · intro n sub l d i x has sch after item _ ih hv
    cases hv with | intro _ _ _ _ _ _ _ _ _ _ _ _ _ _ _ _ h => exact ih (h _ _ _ _ _ rfl has sch after item)
  · intro n c l rest others has parts few _ ih hv
    cases hv with | intro _ _ _ _ _ _ _ _ _ _ _ _ _ _ _ _ _ h1 h2 =>
      obtain ⟨h3, h4⟩ := h1 _ _ rfl has
      have := few_found (P := fun x => Valid pat root c x) h3 parts (fun x hx => h2 _ _ x rfl has hx) ih
      omega
  · intro n x v has _ ih hv
    cases hv with | intro _ _ _ _ _ _ _ _ _ _ _ _ _ _ _ _ _ _ _ _ _ _ _ _ _ _ _ _ h => exact ih (h _ has)

end Chaff
