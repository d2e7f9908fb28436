import Verif.Props.Object
import Verif.Lemmas.Json
/-!
# C14 - C18: generated arrays
-/

set_option linter.unusedVariables false

namespace Chaff
open Comp

/-- From position `t` on, every item is the warning string or differs from all earlier items. -/
def FreshFrom (warning : JVal) (t : Nat) (items : List JVal) : Prop :=
  ∀ j y, t ≤ j → items[j]? = some y → y = warning ∨ ∀ i x, i < j → items[i]? = some x → x.jeq y = false

/-- The warning put in place of an item when no unique one was found. -/
def warningOf (c : Ctx) : JVal := .str (uniqueWarning c.o.maximumUniqueGeneratorAttempts)

section
variable {c : Ctx} {sub : Gen → M JVal}

theorem FreshFrom.snoc {w y : JVal} {t : Nat} {items : List JVal} (h : FreshFrom w t items)
    (hy : y = w ∨ ∀ x ∈ items, x.jeq y = false) : FreshFrom w t (items ++ [y]) := by
  intro j z hj hz
  rcases Nat.lt_trichotomy j items.length with hl | hl | hl
  · rw [List.getElem?_append_left hl] at hz
    rcases h j z hj hz with h1 | h1
    · exact Or.inl h1
    · refine Or.inr (fun i x hi hx => h1 i x hi ?_)
      rwa [List.getElem?_append_left (by omega)] at hx
  · subst hl
    simp at hz
    subst hz
    rcases hy with hy | hy
    · exact Or.inl hy
    · refine Or.inr (fun i x hi hx => ?_)
      rw [List.getElem?_append_left hi] at hx
      exact hy x (List.mem_of_getElem? hx)
  · rw [List.getElem?_eq_none (by simp; omega)] at hz
    cases hz

theorem genTuple_post (gs : List Gen) (s : GSt) : Post (genTuple sub gs) s (fun vs _ => List.Forall₂ (Produced sub) gs vs) := by
  induction gs generalizing s with
  | nil => exact Post.pure .nil
  | cons g gs ih =>
    unfold genTuple
    refine Post.bind (fun v s1 h1 => Post.bind (fun vs s2 h2 => Post.pure ?_))
    exact .cons ⟨_, _, h1⟩ (ih s1 vs s2 h2)

theorem uniqueLoop_post (gen : Gen) (current : List JVal) (n : Nat) (s : GSt) :
    Post (uniqueLoop sub gen current n) s
      (fun o _ => ∀ v, o = some v → Produced sub gen v ∧ ∀ x ∈ current, x.jeq v = false) := by
  induction n generalizing s with
  | zero => exact Post.pure (by simp)
  | succ n ih =>
    unfold uniqueLoop
    refine Post.bind (fun v s1 h1 => ?_)
    split
    · exact ih s1
    · rename_i h
      refine Post.pure ?_
      intro v' hv'
      cases hv'
      refine ⟨⟨_, _, h1⟩, fun x hx => ?_⟩
      by_contra hne
      exact h (List.any_eq_true.2 ⟨x, hx, by simpa using hne⟩)

/-- One item: produced by the generator (and new, when unique items are asked for), or the warning. -/
theorem genUnique_post (unique : Bool) (gen : Gen) (acc : List JVal) (s : GSt) :
    Post (genUnique c sub unique gen acc) s (fun r _ =>
      (r.2 = true ∧ Produced sub gen r.1 ∧ (unique = true → ∀ x ∈ acc, x.jeq r.1 = false)) ∨
      (r.2 = false ∧ unique = true ∧ r.1 = warningOf c)) := by
  unfold genUnique
  split
  · rename_i hu
    refine Post.bind (fun v s1 h1 => Post.pure (Or.inl ⟨rfl, ⟨_, _, h1⟩, ?_⟩))
    intro h; rw [hu] at h; cases h
  · rename_i hu
    have hu : unique = true := by simpa using hu
    refine Post.bind (fun o s1 h1 => ?_)
    have h2 := uniqueLoop_post _ _ _ _ o s1 h1
    cases o with
    | some v => exact Post.pure (Or.inl ⟨rfl, (h2 v rfl).1, fun _ => (h2 v rfl).2⟩)
    | none => exact Post.bind (fun _ _ _ => Post.pure (Or.inr ⟨rfl, hu, rfl⟩))

/-- What one of the loops adds to the array. -/
structure Adds (c : Ctx) (sub : Gen → M JVal) (unique : Bool) (gen : Gen) (t : Nat) (acc r : List JVal) : Prop where
  ext : ∃ new, r = acc ++ new ∧ ∀ x ∈ new, Produced sub gen x ∨ (unique = true ∧ x = warningOf c)
  fresh : unique = true → FreshFrom (warningOf c) t acc → FreshFrom (warningOf c) t r

theorem Adds.refl {unique : Bool} {gen : Gen} {t : Nat} {acc : List JVal} : Adds c sub unique gen t acc acc :=
  ⟨⟨[], by simp, by simp⟩, fun _ h => h⟩

theorem Adds.snoc {unique : Bool} {gen : Gen} {t : Nat} {acc r : List JVal} {v : JVal × Bool}
    (hv : (v.2 = true ∧ Produced sub gen v.1 ∧ (unique = true → ∀ x ∈ acc, x.jeq v.1 = false)) ∨
      (v.2 = false ∧ unique = true ∧ v.1 = warningOf c))
    (h : Adds c sub unique gen t (acc ++ [v.1]) r) : Adds c sub unique gen t acc r := by
  obtain ⟨new, rfl, hn⟩ := h.ext
  refine ⟨⟨v.1 :: new, by simp, fun x hx => ?_⟩, fun hu hf => h.fresh hu (hf.snoc ?_)⟩
  · rcases List.mem_cons.1 hx with rfl | hx
    · rcases hv with hv | hv
      · exact Or.inl hv.2.1
      · exact Or.inr hv.2
    · exact hn x hx
  · rcases hv with hv | hv
    · exact Or.inr (hv.2.2 hu)
    · exact Or.inl hv.2.2

theorem containsLoop_post (unique : Bool) (gen : Gen) (mc : Int) (t : Nat) (n : Nat) (i : Int) (hi : i + n ≤ mc)
    (acc : List JVal) (s : GSt) : Post (containsLoop c sub unique gen mc n i acc) s (fun r _ =>
      Adds c sub unique gen t acc r ∧ r.length = acc.length + n) := by
  induction n generalizing i acc s with
  | zero => exact Post.pure ⟨.refl, by simp⟩
  | succ n ih =>
    unfold containsLoop
    refine Post.bind (fun v s1 h1 => ?_)
    have hv := genUnique_post _ _ _ _ v s1 h1
    rw [if_neg (by omega)]
    refine Post.mono (ih (i + 1) (by push_cast at hi; omega) _ s1) (fun r _ hr => ⟨hr.1.snoc hv, ?_⟩)
    rw [hr.2]; simp; omega

theorem itemsLoop_post (unique : Bool) (gen : Gen) (target mn : Int) (t : Nat) (n : Nat) (i : Int)
    (acc : List JVal) (hi : 0 ≤ i) (hacc : i ≤ goLen acc) (s : GSt) :
    Post (itemsLoop c sub unique gen target mn n i acc) s (fun r _ =>
      Adds c sub unique gen t acc r ∧ mn ≤ goLen r ∧
      goLen r ≤ max (goLen acc) (max (goLen acc + (target - i)) mn)) := by
  induction n generalizing i acc s with
  | zero =>
    unfold itemsLoop
    split
    · exact Post.outOfFuel
    · exact Post.pure ⟨.refl, by omega, by omega⟩
  | succ n ih =>
    unfold itemsLoop
    split
    · refine Post.bind (fun v s1 h1 => ?_)
      have hv := genUnique_post _ _ _ _ v s1 h1
      split
      · exact Post.pure ⟨.refl, by omega, by omega⟩
      · have hl : goLen (acc ++ [v.1]) = goLen acc + 1 := by unfold goLen; simp
        refine Post.mono (ih (i + 1) _ (by omega) (by omega) s1) (fun r _ hr => ⟨hr.1.snoc hv, hr.2.1, ?_⟩)
        have := hr.2.2
        rw [hl] at this
        rename_i hcond _
        omega
    · exact Post.pure ⟨.refl, by omega, by omega⟩

/-- The number of `contains` items (array.go 248-251). -/
def containsCount (g : ArrGen Gen) : Nat :=
  match g.contains with
  | some _ => if g.minContains = 0 then 1 else g.minContains.toNat
  | none => 0

theorem containsStage_post (g : ArrGen Gen) (tup : List JVal) (s : GSt) :
    Post (containsStage c sub g tup) s (fun r _ => ∃ cont, r = tup ++ cont ∧ cont.length = containsCount g ∧
      (∀ x ∈ cont, ∃ cg, g.contains = some cg ∧ (Produced sub cg x ∨ (g.unique = true ∧ x = warningOf c))) ∧
      (g.unique = true → FreshFrom (warningOf c) tup.length r)) := by
  have h0 : FreshFrom (warningOf c) tup.length tup := by
    intro j y hj hy
    rw [List.getElem?_eq_none hj] at hy
    cases hy
  unfold containsStage containsCount
  cases hc : g.contains with
  | none => exact Post.pure ⟨[], by simp, rfl, by simp, fun _ => h0⟩
  | some cg =>
    simp only
    have hcount : (getInt [g.minContains, 1]).toNat = if g.minContains = 0 then 1 else g.minContains.toNat := by
      unfold getInt
      by_cases h : g.minContains = 0
      · simp [h, getInt]
      · simp [h]
    by_cases hneg : getInt [g.minContains, 1] < 0
    · have : (getInt [g.minContains, 1]).toNat = 0 := by omega
      rw [this]
      rw [this] at hcount
      exact Post.pure ⟨[], by simp, by rw [← hcount]; rfl, by simp, fun _ => h0⟩
    · refine Post.mono (containsLoop_post g.unique cg _ tup.length _ 0 (by omega) tup s) ?_
      rintro r _ ⟨h1, h2⟩
      obtain ⟨new, rfl, hn⟩ := h1.ext
      refine ⟨new, rfl, ?_, fun x hx => ⟨cg, rfl, hn x hx⟩, fun hu => h1.fresh hu h0⟩
      rw [← hcount]
      simp at h2
      exact h2

theorem itemsTarget_post (g : ArrGen Gen) (s : GSt) : Post (itemsTarget c g) s (fun t _ =>
    0 ≤ t ∧ t ≤ maxInt 0 ((arrBounds c g).2 - (goLen g.tuple + g.minContains)) ∧ (g.disallowUnevaluated = true → t = 0)) := by
  unfold itemsTarget
  refine Post.bind (fun k s1 h1 => Post.bind (fun m s2 h2 => Post.pure ?_))
  have hr := randomInt_post _ _ _ _ k s1 h1
  have hpos : 0 ≤ maxInt 0 ((arrBounds c g).2 - (goLen g.tuple + g.minContains)) := by unfold maxInt; split <;> omega
  split
  · exact ⟨le_refl _, hpos, fun _ => rfl⟩
  · rename_i h
    refine ⟨by omega, by omega, fun hd => ?_⟩
    simp [hd] at h

/-- The full description of a generated array. -/
structure ArrayOK (c : Ctx) (sub : Gen → M JVal) (g : ArrGen Gen) (tup cont rest : List JVal) : Prop where
  tuple : List.Forall₂ (Produced sub) g.tuple tup
  closed : g.disallowAdditional = true → cont = [] ∧ rest = []
  contains_len : g.disallowAdditional = false → cont.length = containsCount g
  contains : ∀ x ∈ cont, ∃ cg, g.contains = some cg ∧ (Produced sub cg x ∨ (g.unique = true ∧ x = warningOf c))
  items : ∀ x ∈ rest, Produced sub (itemGenOf g) x ∨ (g.unique = true ∧ x = warningOf c)
  fresh : g.unique = true → FreshFrom (warningOf c) tup.length (tup ++ cont ++ rest)
  lower : g.disallowAdditional = false → (arrBounds c g).1 ≤ goLen (tup ++ cont ++ rest)
  upper : g.disallowAdditional = false → goLen (tup ++ cont ++ rest) ≤
    max (goLen g.tuple + containsCount g + max 0 ((arrBounds c g).2 - (goLen g.tuple + g.minContains))) (arrBounds c g).1
  noExtra : g.disallowUnevaluated = true → goLen (tup ++ cont) ≥ (arrBounds c g).1 → rest = []

theorem arrayGenerate_post (g : ArrGen Gen) (s : GSt) :
    Post (arrayGenerate c sub g) s (fun v _ =>
      (v = .null ∧ shouldCutoff c.o (s.complexity + 1) = true) ∨
      (shouldCutoff c.o (s.complexity + 1) = false ∧
        ∃ tup cont rest, v = .arr (tup ++ cont ++ rest) ∧ ArrayOK c sub g tup cont rest)) := by
  intro v s' h
  unfold arrayGenerate at h
  obtain ⟨_, s1, h1, h⟩ := bind_ok.1 h
  simp [tick] at h1
  subst h1
  obtain ⟨b, s2, h2, h⟩ := bind_ok.1 h
  simp [cutoff] at h2
  obtain ⟨hb, rfl⟩ := h2
  cases b with
  | true =>
    rw [if_pos rfl] at h
    obtain ⟨_, s3, h3, h⟩ := bind_ok.1 h
    simp at h
    exact Or.inl ⟨h.1.symm, hb⟩
  | false =>
    rw [if_neg (by simp)] at h
    right
    refine ⟨hb, ?_⟩
    obtain ⟨tup, s3, h3, h⟩ := bind_ok.1 h
    have p3 := genTuple_post _ _ tup s3 h3
    have hlen : goLen tup = goLen g.tuple := by unfold goLen; rw [p3.length_eq]
    cases hd : g.disallowAdditional with
    | true =>
      rw [hd, if_pos rfl] at h
      simp at h
      obtain ⟨rfl, _⟩ := h
      refine ⟨tup, [], [], by simp, p3, fun _ => ⟨rfl, rfl⟩, ?_, by simp, by simp, ?_, ?_, ?_, fun _ _ => rfl⟩
      · rw [hd]; simp
      · intro _ j y hj hy
        rw [List.getElem?_eq_none (by simpa using hj)] at hy
        cases hy
      · rw [hd]; simp
      · rw [hd]; simp
    | false =>
      rw [hd, if_neg (by simp)] at h
      obtain ⟨acc, s4, h4, h⟩ := bind_ok.1 h
      obtain ⟨target, s5, h5, h⟩ := bind_ok.1 h
      obtain ⟨r, s6, h6, h⟩ := bind_ok.1 h
      simp at h
      obtain ⟨rfl, _⟩ := h
      obtain ⟨cont, rfl, hcl, hcont, hfresh⟩ := containsStage_post g tup _ acc s4 h4
      obtain ⟨t1, t2, t3⟩ := itemsTarget_post g _ target s5 h5
      have p6 := itemsLoop_post g.unique (itemGenOf g) target (arrBounds c g).1 tup.length _ 0 (tup ++ cont)
        (le_refl _) (by unfold goLen; omega) _ r s6 h6
      obtain ⟨p6, p7, p8⟩ := p6
      obtain ⟨rest, rfl, hrest⟩ := p6.ext
      have hl2 : goLen (tup ++ cont) = goLen g.tuple + containsCount g := by
        rw [← hlen, ← hcl]; unfold goLen; simp
      refine ⟨tup, cont, rest, rfl, p3, ?_, fun _ => hcl, hcont, hrest, fun hu => p6.fresh hu (hfresh hu),
        fun _ => p7, fun _ => ?_, fun hu hge => ?_⟩
      · rw [hd]; simp
      · unfold maxInt at t2
        split at t2 <;> omega
      · rw [t3 hu] at p8
        have : goLen (tup ++ cont ++ rest) = goLen (tup ++ cont) + rest.length := by unfold goLen; simp; omega
        have : rest.length = 0 := by omega
        exact List.length_eq_zero_iff.1 this

end

theorem generate_arr_post (c : Ctx) (n : Nat) (g : ArrGen Gen) (s : GSt) (v : JVal) (s' : GSt)
    (h : generate c n (.arr g) s = .ok v s') :
    ∃ n', n = n' + 1 ∧
    ((v = .null ∧ shouldCutoff c.o (s.complexity + 1) = true) ∨
      (shouldCutoff c.o (s.complexity + 1) = false ∧
        ∃ tup cont rest, v = .arr (tup ++ cont ++ rest) ∧ ArrayOK c (generate c n') g tup cont rest)) := by
  cases n with
  | zero => simp [generate] at h
  | succ n => exact ⟨n, rfl, arrayGenerate_post g s v s' h⟩

/-- **C14.** An array generated before the cutoff has at least `minItems` items (unless `items: false`). -/
theorem C14_minItems (c : Ctx) (n : Nat) (g : ArrGen Gen) (s : GSt) (v : JVal) (s' : GSt)
    (h : generate c n (.arr g) s = .ok v s') (hcut : shouldCutoff c.o (s.complexity + 1) = false)
    (hmin : g.minItems ≠ 0) (hitems : g.disallowAdditional = false) :
    ∃ items, v = .arr items ∧ g.minItems ≤ goLen items := by
  obtain ⟨n', _, h1 | ⟨_, tup, cont, rest, rfl, hok⟩⟩ := generate_arr_post c n g s v s' h
  · rw [hcut] at h1; cases h1.2
  · refine ⟨_, rfl, ?_⟩
    have := hok.lower hitems
    unfold arrBounds getInt at this
    simp only [if_pos hmin] at this
    exact this

/-- **C15 (generators).** A generated array has at most `maxItems` items, for a positive `maxItems` that is at
least `minItems` and leaves room for the tuple and the `contains` items; all this is what the parser checks. -/
theorem C15_maxItems (c : Ctx) (n : Nat) (g : ArrGen Gen) (s : GSt) (items : List JVal) (s' : GSt)
    (h : generate c n (.arr g) s = .ok (.arr items) s') (hmax : 0 < g.maxItems) (hmin : g.minItems ≤ g.maxItems)
    (hdef : g.minItems = 0 → c.o.defaultArrayMinItems ≤ g.maxItems)
    (hcont : g.contains ≠ none → 0 < g.minContains) (hcont0 : 0 ≤ g.minContains)
    (hroom : goLen g.tuple + g.minContains ≤ g.maxItems) : goLen items ≤ g.maxItems := by
  obtain ⟨n', _, h1 | ⟨_, tup, cont, rest, hi, hok⟩⟩ := generate_arr_post c n g s _ s' h
  · cases h1.1
  · cases hi
    have htl : goLen tup = goLen g.tuple := by unfold goLen; rw [hok.tuple.length_eq]
    cases hd : g.disallowAdditional with
    | true =>
      obtain ⟨rfl, rfl⟩ := hok.closed hd
      simp only [List.append_nil]
      omega
    | false =>
      have hu := hok.upper hd
      have hcc : (containsCount g : Int) ≤ g.minContains := by
        unfold containsCount
        cases hc : g.contains with
        | none => simpa using hcont0
        | some cg =>
          have := hcont (by rw [hc]; simp)
          simp only
          rw [if_neg (by omega)]
          omega
      have h1 : getInt [g.maxItems, c.o.defaultArrayMaxItems] = g.maxItems := by
        unfold getInt; rw [if_pos (by omega)]
      have h2 : getInt [g.minItems, c.o.defaultArrayMinItems] ≤ g.maxItems := by
        unfold getInt
        by_cases h0 : g.minItems = 0
        · rw [if_neg (by simpa using h0)]
          have := hdef h0
          unfold getInt
          split
          · exact this
          · unfold getInt; omega
        · rw [if_pos h0]; exact hmin
      have hb : (arrBounds c g).2 = g.maxItems ∧ (arrBounds c g).1 ≤ g.maxItems := by
        unfold arrBounds
        simp only [h1]
        exact ⟨if_neg (by omega), h2⟩
      omega

/-- **C16.** Position `i` below the tuple length holds a value of the i-th tuple generator. -/
theorem C16_tuple_positions (c : Ctx) (n : Nat) (g : ArrGen Gen) (s : GSt) (items : List JVal) (s' : GSt)
    (h : generate c n (.arr g) s = .ok (.arr items) s') (i : Nat) (tg : Gen) (hi : g.tuple[i]? = some tg) :
    ∃ x n' s1 s2, items[i]? = some x ∧ n = n' + 1 ∧ generate c n' tg s1 = .ok x s2 := by
  obtain ⟨n', hn, h1 | ⟨_, tup, cont, rest, he, hok⟩⟩ := generate_arr_post c n g s _ s' h
  · cases h1.1
  · cases he
    have hlt : i < g.tuple.length := (List.getElem?_eq_some_iff.1 hi).1
    have hlt' : i < tup.length := by rw [← hok.tuple.length_eq]; exact hlt
    have hp := (List.forall₂_iff_get.1 hok.tuple).2 i hlt hlt'
    have he : g.tuple[i] = tg := (List.getElem?_eq_some_iff.1 hi).2
    simp only [List.get_eq_getElem, he] at hp
    obtain ⟨s1, s2, hp⟩ := hp
    refine ⟨tup[i], n', s1, s2, ?_, hn, hp⟩
    rw [List.append_assoc, List.getElem?_append_left hlt', List.getElem?_eq_getElem hlt']

/-- **C16.** With `items: false` the array is exactly the tuple. -/
theorem C16_closed_tuple (c : Ctx) (n : Nat) (g : ArrGen Gen) (s : GSt) (items : List JVal) (s' : GSt)
    (h : generate c n (.arr g) s = .ok (.arr items) s') (hd : g.disallowAdditional = true) :
    items.length = g.tuple.length := by
  obtain ⟨n', hn, h1 | ⟨_, tup, cont, rest, he, hok⟩⟩ := generate_arr_post c n g s _ s' h
  · cases h1.1
  · cases he
    obtain ⟨rfl, rfl⟩ := hok.closed hd
    simp [hok.tuple.length_eq]

/-- **C17.** Right after the tuple come `minContains` items (one when it is not given), each produced by the
`contains` generator, or the uniqueness warning when unique items are asked for. -/
theorem C17_contains (c : Ctx) (n : Nat) (g : ArrGen Gen) (s : GSt) (items : List JVal) (s' : GSt) (cg : Gen)
    (h : generate c n (.arr g) s = .ok (.arr items) s') (hitems : g.disallowAdditional = false)
    (hc : g.contains = some cg) (j : Nat) (hj : (j : Int) < if g.minContains = 0 then 1 else g.minContains) :
    ∃ x, items[g.tuple.length + j]? = some x ∧
      ((∃ n' s1 s2, n = n' + 1 ∧ generate c n' cg s1 = .ok x s2) ∨
       (g.unique = true ∧ x = .str (uniqueWarning c.o.maximumUniqueGeneratorAttempts))) := by
  obtain ⟨n', hn, h1 | ⟨_, tup, cont, rest, he, hok⟩⟩ := generate_arr_post c n g s _ s' h
  · cases h1.1
  · cases he
    have hlen := hok.contains_len hitems
    have hjl : j < cont.length := by
      rw [hlen]; unfold containsCount; rw [hc]; simp only
      split at hj <;> split <;> omega
    have hmem : cont[j] ∈ cont := List.getElem_mem hjl
    refine ⟨cont[j], ?_, ?_⟩
    · rw [List.append_assoc, List.getElem?_append_right (by rw [hok.tuple.length_eq]; omega)]
      rw [hok.tuple.length_eq]
      simp only [Nat.add_sub_cancel_left]
      rw [List.getElem?_append_left hjl, List.getElem?_eq_getElem hjl]
    · obtain ⟨cg', hcg, hx⟩ := hok.contains _ hmem
      rw [hc] at hcg
      cases hcg
      rcases hx with ⟨s1, s2, hx⟩ | hx
      · exact Or.inl ⟨n', s1, s2, hn, hx⟩
      · exact Or.inr hx

/-- **C18.** With `uniqueItems`, every item after the tuple is the warning string or is not the same JSON value as
any earlier item (the values compared denoting JSON, i.e. having distinct member names). -/
theorem C18_uniqueItems (c : Ctx) (n : Nat) (g : ArrGen Gen) (s : GSt) (items : List JVal) (s' : GSt)
    (h : generate c n (.arr g) s = .ok (.arr items) s') (hu : g.unique = true) (j : Nat) (y : JVal)
    (hj : g.tuple.length ≤ j) (hy : items[j]? = some y) :
    y = .str (uniqueWarning c.o.maximumUniqueGeneratorAttempts) ∨
      ∀ i x, i < j → items[i]? = some x → x.WF → ¬ SameJson x y := by
  obtain ⟨n', hn, h1 | ⟨_, tup, cont, rest, he, hok⟩⟩ := generate_arr_post c n g s _ s' h
  · cases h1.1
  · cases he
    rcases hok.fresh hu j y (by rw [← hok.tuple.length_eq]; exact hj) hy with h1 | h1
    · exact Or.inl h1
    · refine Or.inr (fun i x hi hx hw hs => ?_)
      have := h1 i x hi hx
      rw [hs.jeq hw] at this
      cases this

/-! ## Concrete runs -/

/-- Number of items of a generated array. -/
def arrLen : Res GSt JVal → Option Nat
  | .ok (.arr l) _ => some l.length
  | _ => none

theorem exists_of_arrLen {r : Res GSt JVal} {n : Nat} (h : arrLen r = some n) :
    ∃ l s', r = .ok (.arr l) s' ∧ l.length = n := by
  unfold arrLen at h
  split at h
  · exact ⟨_, _, rfl, by simpa using h⟩
  · cases h

/-- A tuple `[null]`, two `contains` items, unique items, between 4 and 6 items. -/
def demoArr : ArrGen Gen :=
  { tuple := [.null], contains := some (.enum [.num 1, .num 2, .num 3]), item := some (.enum [.str "a", .str "b", .str "c", .str "d"]),
    unique := true, minContains := 2, minItems := 4, maxItems := 6 }

/-- C14 - C18: the hypotheses hold of a run that generates five items. -/
example : arrLen (generate demoCtx 3 (.arr demoArr) {}) = some 5 ∧ demoArr.minItems ≠ 0 ∧ 0 < demoArr.maxItems ∧
    demoArr.minItems ≤ demoArr.maxItems ∧ goLen demoArr.tuple + demoArr.minContains ≤ demoArr.maxItems ∧
    shouldCutoff demoCtx.o (({} : GSt).complexity + 1) = false := by decide +kernel

/-- **C18, full uniqueness fails**: items of the tuple are not compared with each other. -/
theorem C18_tuple_violation :
    ∃ (c : Ctx) (n : Nat) (g : ArrGen Gen) (s' : GSt),
      c.o = withGeneratorOptionsDefaults {} ∧ g = { tuple := [.null, .null], unique := true, disallowAdditional := true } ∧
      generate c n (.arr g) {} = .ok (.arr [.null, .null]) s' :=
  ⟨demoCtx, 3, _, _, rfl, rfl, rfl⟩

/-- **C15 fails for `maxItems: 0`**: the bound is ignored. -/
theorem C15_zero_violation :
    ∃ (c : Ctx) (n : Nat) (g : ArrGen Gen) (items : List JVal) (s' : GSt),
      c.o = withGeneratorOptionsDefaults {} ∧ g = { maxItems := 0 } ∧
      generate c n (.arr g) {} = .ok (.arr items) s' ∧ g.maxItems < goLen items := by
  have h : arrLen (generate demoCtx 3 (.arr { maxItems := 0 }) {}) = some 3 := by decide +kernel
  obtain ⟨m, s', h1, h2⟩ := exists_of_arrLen h
  exact ⟨_, _, _, m, s', rfl, rfl, h1, by show 0 < goLen m; unfold goLen; omega⟩

end Chaff
