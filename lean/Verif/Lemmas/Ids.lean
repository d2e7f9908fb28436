import Verif.Spec.Ids
import Verif.Lemmas.NotKeep
/-!
# The walk that collects identifiers
-/

namespace Chaff

/-- The path of a place, as the walk builds it. -/
def trail (ts : List String) : String := ts.foldl (fun acc x => acc ++ "/" ++ x) ""

/-- Tokens without slashes. -/
def Flat (ts : List String) : Prop := ∀ t ∈ ts, '/' ∉ t.toList

theorem trail_snoc (ts : List String) (k : String) : trail (ts ++ [k]) = trail ts ++ "/" ++ k := by
  simp [trail, List.foldl_append]

theorem trail_toList (ts : List String) : (trail ts).toList = (ts.map (fun t => '/' :: t.toList)).flatten := by
  have : ∀ acc : String, (ts.foldl (fun acc x => acc ++ "/" ++ x) acc).toList =
      acc.toList ++ (ts.map (fun t => '/' :: t.toList)).flatten := by
    induction ts with
    | nil => intro acc; simp
    | cons t ts ih =>
      intro acc
      rw [List.foldl_cons, ih]
      simp [String.toList_append]
  exact this ""

theorem flat_split {a b x y : List Char} (ha : '/' ∉ a) (hb : '/' ∉ b) (hx : x = [] ∨ ∃ x', x = '/' :: x')
    (hy : y = [] ∨ ∃ y', y = '/' :: y') (h : a ++ x = b ++ y) : a = b ∧ x = y := by
  induction a generalizing b with
  | nil =>
    cases b with
    | nil => exact ⟨rfl, h⟩
    | cons c t =>
      rw [List.nil_append] at h
      rcases hx with rfl | ⟨x', rfl⟩
      · simp at h
      · rw [List.cons_append] at h
        injection h with h1 _
        exact (hb (by rw [← h1]; simp)).elim
  | cons d s ih =>
    cases b with
    | nil =>
      rw [List.nil_append] at h
      rcases hy with rfl | ⟨y', rfl⟩
      · simp at h
      · rw [List.cons_append] at h
        injection h with h1 _
        exact (ha (by simp [h1])).elim
    | cons c t =>
      rw [List.cons_append, List.cons_append] at h
      injection h with h1 h2
      obtain ⟨h3, h4⟩ := ih (b := t) (fun hh => ha (by simp [hh])) (fun hh => hb (by simp [hh])) h2
      exact ⟨by rw [h1, h3], h4⟩

theorem flatten_start (ts : List String) : (ts.map (fun t => '/' :: t.toList)).flatten = [] ∨
    ∃ x, (ts.map (fun t => '/' :: t.toList)).flatten = '/' :: x := by
  cases ts with
  | nil => left; rfl
  | cons t ts => right; exact ⟨_, rfl⟩

theorem trail_inj : ∀ {ts us : List String}, Flat ts → Flat us → trail ts = trail us → ts = us := by
  intro ts us ht hu h
  replace h := congrArg String.toList h
  rw [trail_toList, trail_toList] at h
  induction ts generalizing us with
  | nil =>
    cases us with
    | nil => rfl
    | cons u us => simp at h
  | cons t ts ih =>
    cases us with
    | nil => simp at h
    | cons u us =>
      rw [List.map_cons, List.map_cons, List.flatten_cons, List.flatten_cons, List.cons_append, List.cons_append] at h
      injection h with _ h
      obtain ⟨h1, h2⟩ := flat_split (ht t (by simp)) (hu u (by simp)) (flatten_start ts) (flatten_start us) h
      rw [String.toList_inj.1 h1, ih (fun x hx => ht x (by simp [hx])) (fun x hx => hu x (by simp [hx])) h2]

theorem trail_length (ts : List String) : ts.length ≤ (trail ts).length := by
  rw [← String.length_toList, trail_toList]
  induction ts with
  | nil => simp
  | cons t ts ih =>
    rw [List.map_cons, List.flatten_cons, List.length_append, List.length_cons, List.length_cons]
    omega

theorem beforeLastSlash_snoc {x k : List Char} (hk : '/' ∉ k) : beforeLastSlash (x ++ '/' :: k) = some x := by
  unfold beforeLastSlash
  rw [if_pos (by simp)]
  have : ∀ (l r : List Char), '/' ∉ l → (l ++ '/' :: r).dropWhile (fun c => decide (c ≠ '/')) = '/' :: r := by
    intro l r hl
    induction l with
    | nil => simp
    | cons c t ih =>
      rw [List.cons_append, List.dropWhile_cons, if_pos (by simpa using fun e => hl (by simp [e]))]
      exact ih fun hh => hl (by simp [hh])
  rw [List.reverse_append, List.reverse_cons, List.append_assoc, List.singleton_append, this _ _ (by simpa using hk)]
  simp

/-- The nearest base, on reversed tokens. -/
def nearT (B : List (String × String)) : List String → String
  | [] => (lookupKV B "").getD ""
  | k :: r => match lookupKV B (trail (k :: r).reverse) with
    | some b => b
    | none => nearT B r

theorem nearest_eq (B : List (String × String)) : ∀ (r : List String) (n : Nat), r.length < n → Flat r.reverse →
    nearestBaseURI B n (trail r.reverse) = nearT B r
  | [], n + 1, _, _ => by
    unfold nearestBaseURI nearT
    show (match lookupKV B "" with | some base => base | none => _) = _
    cases lookupKV B "" with
    | none => rfl
    | some b => rfl
  | k :: r, n + 1, h, hf => by
    unfold nearestBaseURI nearT
    cases lookupKV B (trail (k :: r).reverse) with
    | some b => rfl
    | none =>
      dsimp only
      rw [List.reverse_cons] at hf
      have e : (trail (k :: r).reverse).toList = (trail r.reverse).toList ++ '/' :: k.toList := by
        rw [List.reverse_cons, trail_snoc]
        simp [String.toList_append]
      rw [e, beforeLastSlash_snoc (hf k (by simp))]
      dsimp only
      rw [String.ofList_toList]
      exact nearest_eq B r n (by simp at h; omega) fun t ht => hf t (by simp at ht ⊢; exact Or.inl ht)

/-- The base at a place. -/
def near (B : List (String × String)) (ts : List String) : String := nearT B ts.reverse

theorem near_nearest {B : List (String × String)} {ts : List String} (hf : Flat ts) :
    nearestBaseURI B ((trail ts).length + 1) (trail ts) = near B ts := by
  have := nearest_eq B ts.reverse ((trail ts).length + 1) (by rw [List.length_reverse]; have := trail_length ts; omega)
    (by rw [List.reverse_reverse]; exact hf)
  rw [List.reverse_reverse] at this
  exact this

theorem near_snoc {B : List (String × String)} {ts : List String} {k : String} (h : lookupKV B (trail (ts ++ [k])) = none) :
    near B (ts ++ [k]) = near B ts := by
  unfold near
  rw [List.reverse_append, List.reverse_singleton, List.singleton_append]
  have e : (k :: ts.reverse).reverse = ts ++ [k] := by simp
  show (match lookupKV B (trail (k :: ts.reverse).reverse) with | some b => b | none => nearT B ts.reverse) = _
  rw [e, h]

theorem near_self {B : List (String × String)} {ts : List String} {b : String} (h : lookupKV B (trail ts) = some b) :
    near B ts = b := by
  unfold near
  cases hr : ts.reverse with
  | nil =>
    have : ts = [] := by simpa using hr
    subst this
    unfold nearT
    rw [show trail [] = "" from rfl] at h
    rw [h]; rfl
  | cons k r =>
    unfold nearT
    rw [← hr, List.reverse_reverse, h]

theorem nearT_congr {B B' : List (String × String)} : ∀ {r : List String},
    (∀ us, us <+: r.reverse → lookupKV B' (trail us) = lookupKV B (trail us)) → nearT B' r = nearT B r
  | [], h => by
    unfold nearT
    rw [show ("" : String) = trail [] from rfl, h [] (by simp)]
  | k :: r, h => by
    unfold nearT
    rw [h _ (List.prefix_refl _)]
    rw [nearT_congr (r := r) fun us hus => h us (by rw [List.reverse_cons]; exact hus.trans (List.prefix_append _ _))]

theorem near_congr {B B' : List (String × String)} {ts : List String}
    (h : ∀ us, us <+: ts → lookupKV B' (trail us) = lookupKV B (trail us)) : near B' ts = near B ts :=
  nearT_congr (by rw [List.reverse_reverse]; exact h)

/-! ## The identifiers in walk order -/

/-- The identifier of an object, given the base around it. -/
def ownId (u : UrlSys) (base : String) (m : List (String × JVal)) : Option String :=
  match lookupKV m "$id" with
  | some (.str text) =>
    if text = "" then none
    else if resolveRelativeURI u base text = "" then none else some (resolveRelativeURI u base text)
  | _ => none

/-- The base inside an object. -/
def ownBase (u : UrlSys) (base : String) (m : List (String × JVal)) : String := (ownId u base m).getD base

mutual
/-- The identifiers of a value in walk order. -/
def idsOf (u : UrlSys) : String → JVal → List String → List (String × List String)
  | base, .obj m, ts => ((ownId u base m).map (fun x => (x, ts))).toList ++ idsFields u (ownBase u base m) m ts
  | _, .null, _ => []
  | _, .bool _, _ => []
  | _, .num _, _ => []
  | _, .str _, _ => []
  | _, .arr _, _ => []
termination_by structural _ v => v
/-- Those of the members. -/
def idsFields (u : UrlSys) : String → List (String × JVal) → List String → List (String × List String)
  | _, [], _ => []
  | base, p :: t, ts => idsField u base p ts ++ idsFields u base t ts
termination_by structural _ l => l
/-- Those of one member. -/
def idsField (u : UrlSys) : String → String × JVal → List String → List (String × List String)
  | base, (k, v), ts => idsMember u base v (ts ++ [k])
termination_by structural _ p => p
/-- Those of the value of a member. -/
def idsMember (u : UrlSys) : String → JVal → List String → List (String × List String)
  | base, .obj m, ts => ((ownId u base m).map (fun x => (x, ts))).toList ++ idsFields u (ownBase u base m) m ts
  | base, .arr l, ts => idsItems u base l ts 0
  | _, .null, _ => []
  | _, .bool _, _ => []
  | _, .num _, _ => []
  | _, .str _, _ => []
termination_by structural _ v => v
/-- Those of the items of an array. -/
def idsItems (u : UrlSys) : String → List JVal → List String → Nat → List (String × List String)
  | _, [], _, _ => []
  | base, v :: t, ts, i => idsOf u base v (ts ++ [toString i]) ++ idsItems u base t ts (i + 1)
termination_by structural _ l => l
end

/-- Recording an identifier: the first one wins, the root is not recorded. -/
def addId (d : String) (f : List (String × (String × String))) (p : String × List String) :
    List (String × (String × String)) :=
  if p.2 = [] ∨ (lookupKV f p.1).isSome then f else insertKV f p.1 (d, "#" ++ trail p.2)

/-- Nothing is recorded at or below a place. -/
def FreshAt (B : List (String × String)) (ts : List String) : Prop :=
  ∀ us, Flat us → ts <+: us → lookupKV B (trail us) = none

/-- Only places at or below `ts` have changed. -/
def FrameAt (B B' : List (String × String)) (ts : List String) : Prop :=
  ∀ us, Flat us → ¬ ts <+: us → lookupKV B' (trail us) = lookupKV B (trail us)

theorem trail_eq_empty {ts : List String} : trail ts = "" ↔ ts = [] := by
  constructor
  · intro h
    cases ts with
    | nil => rfl
    | cons t r =>
      have := congrArg String.toList h
      rw [trail_toList] at this
      simp at this
  · rintro rfl; rfl

/-- The visit of one object. -/
theorem visitId_spec (u : UrlSys) (d : String) (m : List (String × JVal)) (ts : List String) (hf : Flat ts) (w : IdWalk)
    (base : String) (hb : near w.bases ts = base) :
    (visitId u d m (trail ts) w).found = (((ownId u base m).map (fun x => (x, ts))).toList).foldl (addId d) w.found ∧
    (∀ us, Flat us → us ≠ ts → lookupKV (visitId u d m (trail ts) w).bases (trail us) = lookupKV w.bases (trail us)) ∧
    near (visitId u d m (trail ts) w).bases ts = ownBase u base m := by
  unfold visitId ownBase ownId
  rw [near_nearest hf, hb]
  split
  · rename_i text he
    simp only [he]
    by_cases ht : text = ""
    · simp only [if_pos ht]
      exact ⟨rfl, by simp, hb⟩
    · simp only [if_neg ht]
      by_cases hr : resolveRelativeURI u base text = ""
      · simp only [if_pos hr]
        exact ⟨rfl, by simp, hb⟩
      · simp only [if_neg hr]
        have hB : ∀ us, Flat us → us ≠ ts →
            lookupKV (insertKV w.bases (trail ts) (resolveRelativeURI u base text)) (trail us) = lookupKV w.bases (trail us) :=
          fun us h1 h2 => lookupKV_insertKV_ne fun e => h2 (trail_inj h1 hf e)
        have hN : near (insertKV w.bases (trail ts) (resolveRelativeURI u base text)) ts = resolveRelativeURI u base text :=
          near_self lookupKV_insertKV_self
        simp only [Option.map_some, Option.toList_some, List.foldl_cons, List.foldl_nil, Option.getD_some, addId]
        by_cases h0 : trail ts = ""
        · have : ts = [] := trail_eq_empty.1 h0
          rw [if_pos h0, if_pos (Or.inl this)]
          exact ⟨rfl, hB, hN⟩
        · have : ts ≠ [] := fun e => h0 (trail_eq_empty.2 e)
          rw [if_neg h0]
          by_cases hs : (lookupKV w.found (resolveRelativeURI u base text)).isSome = true
          · rw [if_pos hs, if_pos (Or.inr hs)]
            exact ⟨rfl, hB, hN⟩
          · rw [if_neg hs, if_neg (by rintro (h | h); exacts [this h, hs h])]
            exact ⟨rfl, hB, hN⟩
  · rename_i hne
    have hnone : (match lookupKV m "$id" with
        | some (JVal.str text) =>
          if text = "" then none
          else if resolveRelativeURI u base text = "" then none else some (resolveRelativeURI u base text)
        | _ => none) = (none : Option String) := by
      split
      · rename_i text he; exact (hne text he).elim
      · rfl
    rw [hnone]
    exact ⟨rfl, fun _ _ _ => rfl, hb⟩

theorem toString_flat (i : Nat) : '/' ∉ (toString i).toList := by
  intro h
  have : ('/' : Char).isDigit = true :=
    Nat.isDigit_of_mem_toDigits (b := 10) (n := i) (by decide) (by decide) (by simpa [toString, Nat.repr] using h)
  exact absurd this (by decide)

theorem toString_nat_inj {i j : Nat} (h : toString i = toString j) : i = j := by
  have h1 : Nat.toDigits 10 i = Nat.toDigits 10 j := by
    have := congrArg String.toList h
    simpa [toString, Nat.repr] using this
  rw [← Nat.ofDigitChars_ten_toDigits (n := i), ← Nat.ofDigitChars_ten_toDigits (n := j), h1]

theorem flat_snoc {ts : List String} {k : String} (h : Flat ts) (hk : '/' ∉ k.toList) : Flat (ts ++ [k]) := by
  intro t ht
  rcases List.mem_append.1 ht with ht | ht
  · exact h t ht
  · rw [List.mem_singleton.1 ht]; exact hk

theorem not_prefix_snoc {ts us : List String} {k : String} (h : us <+: ts) : ¬ ts ++ [k] <+: us := by
  intro h'
  have := h.length_le
  have := h'.length_le
  simp at this
  omega

theorem snoc_prefix_inj {ts us : List String} {k k' : String} (h : ts ++ [k] <+: us) (h' : ts ++ [k'] <+: us) : k = k' := by
  obtain ⟨x, rfl⟩ := h
  obtain ⟨y, hy⟩ := h'
  rw [List.append_assoc, List.append_assoc, List.append_cancel_left_eq] at hy
  injection hy with h1 _
  exact h1.symm

/-- The result of walking a part of the schema that lies at or below `ts`. -/
structure Walked (d : String) (ts : List String) (ids : List (String × List String)) (w w' : IdWalk) : Prop where
  found : w'.found = ids.foldl (addId d) w.found
  frame : FrameAt w.bases w'.bases ts

theorem FrameAt.near_eq {B B' : List (String × String)} {ts : List String} {k : String} (h : FrameAt B B' (ts ++ [k]))
    (hf : Flat ts) : near B' ts = near B ts :=
  near_congr fun us hus => h us (fun t ht => hf t (hus.subset ht)) (not_prefix_snoc hus)

/-- What the walk over members needs. -/
structure FieldsPre (B : List (String × String)) (ts : List String) (l : List (String × JVal)) (base : String) : Prop where
  flat : Flat ts
  near : near B ts = base
  nodup : (l.map Prod.fst).Nodup
  names : ∀ p ∈ l, '/' ∉ p.1.toList
  slash : ∀ p ∈ l, SlashFree p.2
  wf : ∀ p ∈ l, JVal.WF p.2
  fresh : ∀ p ∈ l, FreshAt B (ts ++ [p.1])

/-- An object: visit it, then its members. -/
theorem object_pre {u : UrlSys} {d : String} {m : List (String × JVal)} {ts : List String} (hf : Flat ts) {w : IdWalk}
    {base : String} (hb : near w.bases ts = base) (hs : SlashFree (.obj m)) (hw : JVal.WF (.obj m))
    (fresh : ∀ us, Flat us → ts <+: us → us ≠ ts → lookupKV w.bases (trail us) = none) :
    FieldsPre (visitId u d m (trail ts) w).bases ts m (ownBase u base m) := by
  obtain ⟨_, h2, h3⟩ := visitId_spec u d m ts hf w base hb
  cases hs with
  | obj _ hn hs =>
    cases hw with
    | obj _ hnd hw =>
      refine ⟨hf, h3, hnd, hn, hs, hw, fun p hp us hu hpre => ?_⟩
      have hne : us ≠ ts := fun e => not_prefix_snoc (k := p.1) (List.prefix_refl ts) (e ▸ hpre)
      rw [h2 us hu hne]
      exact fresh us hu ((List.prefix_append _ _).trans hpre) hne

theorem object_post {u : UrlSys} {d : String} {m : List (String × JVal)} {ts : List String} (hf : Flat ts) {w w' : IdWalk}
    {base : String} (hb : near w.bases ts = base)
    (h1 : w'.found = (idsFields u (ownBase u base m) m ts).foldl (addId d) (visitId u d m (trail ts) w).found)
    (h2 : FrameAt (visitId u d m (trail ts) w).bases w'.bases ts) :
    Walked d ts (((ownId u base m).map (fun x => (x, ts))).toList ++ idsFields u (ownBase u base m) m ts) w w' := by
  obtain ⟨v1, v2, _⟩ := visitId_spec u d m ts hf w base hb
  refine ⟨by rw [h1, v1, List.foldl_append], fun us hu hpre => ?_⟩
  rw [h2 us hu hpre]
  exact v2 us hu fun e => hpre (e ▸ List.prefix_refl _)

mutual
theorem walkIds_spec (u : UrlSys) (d : String) : ∀ (v : JVal) (ts : List String) (w : IdWalk) (base : String),
    SlashFree v → JVal.WF v → Flat ts → near w.bases ts = base →
    (∀ us, Flat us → ts <+: us → us ≠ ts → lookupKV w.bases (trail us) = none) →
    Walked d ts (idsOf u base v ts) w (walkIds u d v (trail ts) w)
  | .obj m, ts, w, base, hs, hw, hf, hb, fresh => by
    unfold walkIds idsOf
    obtain ⟨h1, h2⟩ := walkIdFields_spec u d m ts _ _ (object_pre (u := u) (d := d) hf hb hs hw fresh)
    exact object_post hf hb h1 h2
  | .null, _, _, _, _, _, _, _, _ => by unfold walkIds idsOf; exact ⟨rfl, fun _ _ _ => rfl⟩
  | .bool _, _, _, _, _, _, _, _, _ => by unfold walkIds idsOf; exact ⟨rfl, fun _ _ _ => rfl⟩
  | .num _, _, _, _, _, _, _, _, _ => by unfold walkIds idsOf; exact ⟨rfl, fun _ _ _ => rfl⟩
  | .str _, _, _, _, _, _, _, _, _ => by unfold walkIds idsOf; exact ⟨rfl, fun _ _ _ => rfl⟩
  | .arr _, _, _, _, _, _, _, _, _ => by unfold walkIds idsOf; exact ⟨rfl, fun _ _ _ => rfl⟩
termination_by structural v => v
theorem walkIdFields_spec (u : UrlSys) (d : String) : ∀ (l : List (String × JVal)) (ts : List String) (w : IdWalk)
    (base : String), FieldsPre w.bases ts l base →
    (walkIdFields u d l (trail ts) w).found = (idsFields u base l ts).foldl (addId d) w.found ∧
    FrameAt w.bases (walkIdFields u d l (trail ts) w).bases ts
  | [], _, _, _, _ => by unfold walkIdFields idsFields; exact ⟨rfl, fun _ _ _ => rfl⟩
  | p :: t, ts, w, base, h => by
    unfold walkIdFields idsFields
    have hp := walkIdField_spec u d p ts w base h.flat h.near (h.names p (by simp)) (h.slash p (by simp)) (h.wf p (by simp))
      (h.fresh p (by simp))
    have hnd := h.nodup
    rw [List.map_cons, List.nodup_cons] at hnd
    have ht := walkIdFields_spec u d t ts (walkIdField u d p (trail ts) w) base
      { flat := h.flat, near := (hp.frame.near_eq h.flat).trans h.near, nodup := hnd.2
        names := fun q hq => h.names q (by simp [hq]), slash := fun q hq => h.slash q (by simp [hq])
        wf := fun q hq => h.wf q (by simp [hq])
        fresh := fun q hq us hu hpre => by
          rw [hp.frame us hu]
          · exact h.fresh q (by simp [hq]) us hu hpre
          · intro hpre'
            exact hnd.1 (by rw [snoc_prefix_inj hpre' hpre]; exact List.mem_map.2 ⟨q, hq, rfl⟩) }
    refine ⟨by rw [ht.1, hp.found, List.foldl_append], fun us hu hpre => ?_⟩
    rw [ht.2 us hu hpre, hp.frame us hu fun h' => hpre ((List.prefix_append _ _).trans h')]
termination_by structural l => l
theorem walkIdField_spec (u : UrlSys) (d : String) : ∀ (p : String × JVal) (ts : List String) (w : IdWalk) (base : String),
    Flat ts → near w.bases ts = base → '/' ∉ p.1.toList → SlashFree p.2 → JVal.WF p.2 → FreshAt w.bases (ts ++ [p.1]) →
    Walked d (ts ++ [p.1]) (idsField u base p ts) w (walkIdField u d p (trail ts) w)
  | (k, v), ts, w, base, hf, hb, hk, hs, hw, fresh => by
    unfold walkIdField idsField
    rw [← trail_snoc]
    refine walkIdMember_spec u d v (ts ++ [k]) w base (flat_snoc hf hk) ?_ hs hw fresh
    rw [near_snoc (fresh _ (flat_snoc hf hk) (List.prefix_refl _)), hb]
termination_by structural p => p
theorem walkIdMember_spec (u : UrlSys) (d : String) : ∀ (v : JVal) (ts : List String) (w : IdWalk) (base : String),
    Flat ts → near w.bases ts = base → SlashFree v → JVal.WF v → FreshAt w.bases ts →
    Walked d ts (idsMember u base v ts) w (walkIdMember u d v (trail ts) w)
  | .obj m, ts, w, base, hf, hb, hs, hw, fresh => by
    unfold walkIdMember idsMember
    obtain ⟨h1, h2⟩ := walkIdFields_spec u d m ts _ _
      (object_pre (u := u) (d := d) hf hb hs hw fun us hu hpre _ => fresh us hu hpre)
    exact object_post hf hb h1 h2
  | .arr l, ts, w, base, hf, hb, hs, hw, fresh => by
    unfold walkIdMember idsMember
    cases hs with
    | arr _ hs =>
      cases hw with
      | arr _ hw =>
        obtain ⟨h1, h2⟩ := walkIdItems_spec u d l ts 0 w base hf hb hs hw
          fun j _ us hu hpre => fresh us hu ((List.prefix_append _ _).trans hpre)
        exact ⟨h1, h2⟩
  | .null, _, _, _, _, _, _, _, _ => by unfold walkIdMember idsMember; exact ⟨rfl, fun _ _ _ => rfl⟩
  | .bool _, _, _, _, _, _, _, _, _ => by unfold walkIdMember idsMember; exact ⟨rfl, fun _ _ _ => rfl⟩
  | .num _, _, _, _, _, _, _, _, _ => by unfold walkIdMember idsMember; exact ⟨rfl, fun _ _ _ => rfl⟩
  | .str _, _, _, _, _, _, _, _, _ => by unfold walkIdMember idsMember; exact ⟨rfl, fun _ _ _ => rfl⟩
termination_by structural v => v
theorem walkIdItems_spec (u : UrlSys) (d : String) : ∀ (l : List JVal) (ts : List String) (i : Nat) (w : IdWalk)
    (base : String), Flat ts → near w.bases ts = base → (∀ x ∈ l, SlashFree x) → (∀ x ∈ l, JVal.WF x) →
    (∀ j, i ≤ j → FreshAt w.bases (ts ++ [toString j])) →
    (walkIdItems u d l (trail ts) i w).found = (idsItems u base l ts i).foldl (addId d) w.found ∧
    FrameAt w.bases (walkIdItems u d l (trail ts) i w).bases ts
  | [], _, _, _, _, _, _, _, _, _ => by unfold walkIdItems idsItems; exact ⟨rfl, fun _ _ _ => rfl⟩
  | v :: t, ts, i, w, base, hf, hb, hs, hw, fresh => by
    unfold walkIdItems idsItems
    have e : trail ts ++ s!"/{(i : Nat)}" = trail (ts ++ [toString i]) := by
      rw [trail_snoc]
      apply String.toList_inj.1
      simp [String.toList_append, toString]
    rw [e]
    have hfi : Flat (ts ++ [toString i]) := flat_snoc hf (toString_flat i)
    have hp := walkIds_spec u d v (ts ++ [toString i]) w base (hs v (by simp)) (hw v (by simp)) hfi
      (by rw [near_snoc (fresh i (le_refl i) _ hfi (List.prefix_refl _)), hb])
      (fun us hu hpre _ => fresh i (le_refl i) us hu hpre)
    have ht := walkIdItems_spec u d t ts (i + 1) (walkIds u d v (trail (ts ++ [toString i])) w) base hf
      ((hp.frame.near_eq hf).trans hb) (fun x hx => hs x (by simp [hx])) (fun x hx => hw x (by simp [hx]))
      (fun j hj us hu hpre => by
        rw [hp.frame us hu]
        · exact fresh j (by omega) us hu hpre
        · intro hpre'
          have := toString_nat_inj (snoc_prefix_inj hpre' hpre)
          omega)
    refine ⟨by rw [ht.1, hp.found, List.foldl_append], fun us hu hpre => ?_⟩
    rw [ht.2 us hu hpre, hp.frame us hu fun h' => hpre ((List.prefix_append _ _).trans h')]
termination_by structural l => l
end

/-! ## The identifiers and the specification -/

theorem resolve_iff {u : UrlSys} {base text uri : String} (h : uri ≠ "") :
    resolveRelativeURI u base text = uri ↔ AgainstBase u base text uri := by
  unfold resolveRelativeURI AgainstBase
  constructor
  · intro e
    split at e
    · rename_i b r hb hr
      exact ⟨b, r, hb, hr, e.symm, h⟩
    · exact (h e.symm).elim
  · rintro ⟨b, r, hb, hr, e, _⟩
    rw [hb, hr]
    exact e.symm

theorem ownId_iff {u : UrlSys} {base : String} {m : List (String × JVal)} {uri : String} :
    ownId u base m = some uri ↔ HasId u base m uri := by
  unfold ownId HasId
  constructor
  · intro h
    split at h
    · rename_i text he
      split at h
      · cases h
      · rename_i ht
        split at h
        · cases h
        · rename_i hr
          injection h with h
          exact ⟨text, he, ht, (resolve_iff (h ▸ hr)).1 h⟩
    · cases h
  · rintro ⟨text, he, ht, ha⟩
    have hne : uri ≠ "" := by obtain ⟨_, _, _, _, _, h⟩ := ha; exact h
    have hr := (resolve_iff hne).2 ha
    rw [he]
    dsimp only
    rw [if_neg ht, if_neg (by rw [hr]; exact hne), hr]

theorem innerBase_iff {u : UrlSys} {base : String} {m : List (String × JVal)} {inner : String} :
    InnerBase u base m inner ↔ inner = ownBase u base m := by
  unfold InnerBase ownBase
  constructor
  · rintro (h | ⟨rfl, h⟩)
    · rw [ownId_iff.2 h]; rfl
    · cases e : ownId u inner m with
      | none => rfl
      | some x => exact (h x (ownId_iff.1 e)).elim
  · rintro rfl
    cases e : ownId u base m with
    | none => exact Or.inr ⟨rfl, fun x hx => by rw [ownId_iff.2 hx] at e; cases e⟩
    | some x => exact Or.inl (ownId_iff.1 e)

theorem fields_mem {u : UrlSys} {base : String} {l : List (String × JVal)} {ts : List String} {q : String × List String} :
    q ∈ idsFields u base l ts ↔ ∃ p ∈ l, q ∈ idsMember u base p.2 (ts ++ [p.1]) := by
  induction l with
  | nil => unfold idsFields; simp
  | cons p t ih =>
    obtain ⟨k, v⟩ := p
    unfold idsFields idsField
    rw [List.mem_append, ih]
    simp

theorem items_mem {u : UrlSys} {base : String} {l : List JVal} {ts : List String} {i : Nat} {q : String × List String} :
    q ∈ idsItems u base l ts i ↔ ∃ j x, l[j]? = some x ∧ q ∈ idsOf u base x (ts ++ [toString (i + j)]) := by
  induction l generalizing i with
  | nil => unfold idsItems; simp
  | cons v t ih =>
    unfold idsItems
    rw [List.mem_append, ih]
    constructor
    · rintro (h | ⟨j, x, h1, h2⟩)
      · exact ⟨0, v, rfl, h⟩
      · exact ⟨j + 1, x, by simpa using h1, by rw [show i + (j + 1) = i + 1 + j from by omega]; exact h2⟩
    · rintro ⟨j, x, h1, h2⟩
      cases j with
      | zero => simp at h1; subst h1; exact Or.inl h2
      | succ j => exact Or.inr ⟨j, x, by simpa using h1, by rw [show i + 1 + j = i + (j + 1) from by omega]; exact h2⟩

theorem member_obj {u : UrlSys} {base : String} {m : List (String × JVal)} {ts : List String} :
    idsMember u base (.obj m) ts = idsOf u base (.obj m) ts := by
  unfold idsMember idsOf
  rfl

theorem ids_sound (u : UrlSys) : ∀ (n : Nat) (v : JVal), sizeOf v < n → ∀ (base : String) (ts us : List String)
    (uri : String), (uri, us) ∈ idsOf u base v ts → ∃ rs, us = ts ++ rs ∧ Identifies u base v rs uri
  | 0, _, h, _, _, _, _, _ => absurd h (by omega)
  | n + 1, v, hn, base, ts, us, uri, h => by
    cases v with
    | obj m =>
      unfold idsOf at h
      rcases List.mem_append.1 h with h | h
      · cases e : ownId u base m with
        | none => rw [e] at h; simp at h
        | some x =>
          rw [e] at h
          simp at h
          obtain ⟨rfl, rfl⟩ := h
          exact ⟨[], by simp, .here (ownId_iff.1 e)⟩
      · obtain ⟨⟨k, w⟩, hp, hq⟩ := fields_mem.1 h
        have hlt := List.sizeOf_lt_of_mem hp
        cases w with
        | obj m' =>
          dsimp only at hq
          rw [member_obj] at hq
          obtain ⟨rs, rfl, hi⟩ := ids_sound u n (.obj m') (by simp at hn hlt ⊢; omega) _ _ _ _ hq
          exact ⟨k :: rs, by simp, .member (innerBase_iff.2 rfl) hp hi⟩
        | arr l =>
          dsimp only at hq
          unfold idsMember at hq
          obtain ⟨j, x, hj, hq⟩ := items_mem.1 hq
          have hlt2 := List.sizeOf_lt_of_mem (List.mem_of_getElem? hj)
          obtain ⟨rs, rfl, hi⟩ := ids_sound u n x (by simp at hn hlt ⊢; omega) _ _ _ _ hq
          cases x with
          | obj m' => exact ⟨k :: toString j :: rs, by simp, .item (innerBase_iff.2 rfl) hp hj hi⟩
          | _ => unfold idsOf at hq; simp at hq
        | _ => unfold idsMember at hq; simp at hq
    | _ => unfold idsOf at h; simp at h

theorem ids_complete {u : UrlSys} {base : String} {v : JVal} {rs : List String} {uri : String}
    (h : Identifies u base v rs uri) : ∀ ts, (uri, ts ++ rs) ∈ idsOf u base v ts := by
  induction h with
  | here hh =>
    intro ts
    unfold idsOf
    rw [ownId_iff.2 hh]
    simp
  | @member base m inner k m' rs uri hb hm _ ih =>
    intro ts
    rw [innerBase_iff] at hb
    subst hb
    unfold idsOf
    refine List.mem_append_right _ (fields_mem.2 ⟨_, hm, ?_⟩)
    dsimp only
    rw [member_obj]
    have := ih (ts ++ [k])
    rwa [List.append_assoc, List.singleton_append] at this
  | @item base m inner k l m' rs uri i hb hm hi _ ih =>
    intro ts
    rw [innerBase_iff] at hb
    subst hb
    unfold idsOf
    refine List.mem_append_right _ (fields_mem.2 ⟨_, hm, ?_⟩)
    dsimp only
    unfold idsMember
    refine items_mem.2 ⟨i, _, hi, ?_⟩
    have := ih (ts ++ [k] ++ [toString (0 + i)])
    rw [Nat.zero_add] at this ⊢
    simpa using this

theorem ids_iff {u : UrlSys} {base : String} {v : JVal} {rs : List String} {uri : String} :
    (uri, rs) ∈ idsOf u base v [] ↔ Identifies u base v rs uri := by
  constructor
  · intro h
    obtain ⟨ts, e, hi⟩ := ids_sound u _ v (Nat.lt_succ_self _) _ _ _ _ h
    rw [e]; exact hi
  · intro h
    exact ids_complete h []

theorem lookup_addId {d : String} {L : List (String × List String)} {uri : String} :
    ∀ {f : List (String × (String × String))} {x : String × String}, lookupKV (L.foldl (addId d) f) uri = some x →
      lookupKV f uri = some x ∨ ∃ ts, (uri, ts) ∈ L ∧ ts ≠ [] ∧ x = (d, "#" ++ trail ts) := by
  induction L with
  | nil => intro f x h; exact Or.inl h
  | cons p t ih =>
    intro f x h
    rw [List.foldl_cons] at h
    rcases ih h with h | ⟨ts, h1, h2, h3⟩
    · unfold addId at h
      split at h
      · exact Or.inl h
      · rename_i hc
        rw [not_or] at hc
        by_cases e : uri = p.1
        · subst e
          rw [lookupKV_insertKV_self] at h
          injection h with h
          exact Or.inr ⟨p.2, by simp, hc.1, h.symm⟩
        · rw [lookupKV_insertKV_ne e] at h
          exact Or.inl h
    · exact Or.inr ⟨ts, by simp [h1], h2, h3⟩

theorem lookup_addId_some {d : String} {L : List (String × List String)} {uri : String} :
    ∀ {f : List (String × (String × String))}, ((lookupKV f uri).isSome ∨ ∃ ts, (uri, ts) ∈ L ∧ ts ≠ []) →
      (lookupKV (L.foldl (addId d) f) uri).isSome := by
  induction L with
  | nil =>
    rintro f (h | ⟨ts, h, _⟩)
    · exact h
    · simp at h
  | cons p t ih =>
    intro f h
    rw [List.foldl_cons]
    refine ih ?_
    have keep : (lookupKV f uri).isSome → (lookupKV (addId d f p) uri).isSome := by
      intro h
      unfold addId
      split
      · exact h
      · by_cases e : uri = p.1
        · subst e; rw [lookupKV_insertKV_self]; rfl
        · rw [lookupKV_insertKV_ne e]; exact h
    rcases h with h | ⟨ts, hm, hne⟩
    · exact Or.inl (keep h)
    · rcases List.mem_cons.1 hm with e | hm
      · left
        subst e
        unfold addId
        by_cases hs : (lookupKV f uri).isSome = true
        · rw [if_pos (Or.inr hs)]; exact hs
        · rw [if_neg (by rintro (h | h); exacts [hne h, hs h]), lookupKV_insertKV_self]; rfl
      · exact Or.inr ⟨ts, hm, hne⟩

/-- Everything that is collected from a document. -/
theorem collect_ids (u : UrlSys) (base d : String) (n : SchemaNode) (hs : SlashFree (encodeNode n))
    (hw : JVal.WF (encodeNode n)) :
    collectSubSchemaIds u base d n = (idsOf u base (encodeNode n) []).foldl (addId d) [] := by
  unfold collectSubSchemaIds
  refine (walkIds_spec u d (encodeNode n) [] _ base hs hw (by intro t ht; cases ht) rfl ?_).found
  intro us hu _ hne
  show lookupKV [("", base)] (trail us) = none
  have : trail us ≠ "" := fun e => hne (trail_eq_empty.1 e)
  simp [lookupKV, Ne.symm this]

end Chaff
