import Verif.Lemmas.RandPost
import Verif.Lemmas.KV
import Verif.Props.Termination
import Std.Data.String.ToNat
/-!
# C09 - C13: generated objects

The lemmas quantify over an arbitrary behaviour `sub` of the sub-generators; the theorems are about `generate`.
-/

set_option linter.unusedVariables false

namespace Chaff
open Comp

/-- `v` is a possible output of generator `g`. -/
def Produced (sub : Gen → M JVal) (g : Gen) (v : JVal) : Prop := ∃ s s', sub g s = .ok v s'

/-- `k` is a possible output of a regex generator. -/
def ProducedKey (w : World) (rg : RxGen) (k : String) : Prop := ∃ cs s s', rxGenerate w rg s = .ok cs s' ∧ k = String.ofList cs

/-- Where an entry of a generated object can come from; `fill` tells whether fillers may occur. -/
inductive Entry (c : Ctx) (sub : Gen → M JVal) (g : ObjGen Gen) (fill : Bool) : String → JVal → Prop
  /-- a declared property, generated by its own generator -/
  | declared {k v pg} : lookupKV g.props k = some pg → Produced sub pg v → Entry c sub g fill k v
  /-- a required name that is not declared: a marker string -/
  | undeclared {k v} (n : Int) (pre : String) : k ∈ g.required → k ∉ keysKV g.props →
      v = .str s!"{pre}_{k}_{n}" → Entry c sub g fill k v
  /-- a name generated from a pattern, with a value for that pattern -/
  | pattern {k v rx pg rg} : (rx, (pg, some rg)) ∈ g.patProps → ProducedKey c.w rg k → Produced sub pg v → Entry c sub g fill k v
  /-- a pattern whose regular expression could not be used -/
  | badPattern {rx pg} : (rx, (pg, none)) ∈ g.patProps → Entry c sub g fill "" .null
  /-- an additional property -/
  | additional {k v a} (i : Nat) : g.patProps = [] → g.disallowAdditional = false → g.additional = some a →
      k = s!"additional_{i}" → Produced sub a v → Entry c sub g fill k v
  /-- a fallback property (only when not suppressed) -/
  | fallback {k v} (i : Nat) : g.patProps = [] → g.disallowAdditional = false → g.additional = none →
      c.o.suppressFallbackValues = false → k = s!"fallback_{i}" → Produced sub .null v → Entry c sub g fill k v
  /-- a filler to reach the minimum -/
  | filler {k v} (i : Nat) : fill = true → (g.patProps ≠ [] ∨ g.disallowAdditional = false) → k = s!"min_filler_{i}" →
      Produced sub (g.additional.getD .null) v → Entry c sub g fill k v

/-- A generated map: distinct keys, every entry accounted for. -/
structure MapOK (c : Ctx) (sub : Gen → M JVal) (g : ObjGen Gen) (fill : Bool) (m : ObjMap) : Prop where
  nodup : (keysKV m).Nodup
  entries : ∀ k v, (k, v) ∈ m → Entry c sub g fill k v

theorem MapOK.insert {c : Ctx} {sub : Gen → M JVal} {g : ObjGen Gen} {fill : Bool} {m : ObjMap} {k : String} {v : JVal}
    (h : MapOK c sub g fill m) (he : Entry c sub g fill k v) : MapOK c sub g fill (insertKV m k v) where
  nodup := nodup_insertKV h.nodup
  entries := by
    intro k' v' hm
    rcases mem_insertKV hm with h1 | h1
    · cases h1; exact he
    · exact h.entries _ _ h1

section stages
variable {c : Ctx} {sub : Gen → M JVal} {g : ObjGen Gen} {fill : Bool}

theorem genKey_entry {pre k : String} {v : JVal} {s s' : GSt} (hk : k ∈ g.required ∨ k ∈ keysKV g.props)
    (h : genKey c sub g pre k s = .ok v s') : Entry c sub g fill k v := by
  unfold genKey at h
  cases hl : lookupKV g.props k with
  | some pg => rw [hl] at h; exact .declared hl ⟨s, s', h⟩
  | none =>
    rw [hl] at h
    obtain ⟨n, s1, h1, h⟩ := bind_ok.1 h
    simp at h
    have hnk := lookupKV_none.1 hl
    rcases hk with hk | hk
    · exact .undeclared n pre hk hnk h.1.symm
    · exact (hnk hk).elim

/-- What a stage of `Generate` does to the map: it stays accounted for, keys are only added, and the number of
entries grows by at most `n`. -/
structure Grows (c : Ctx) (sub : Gen → M JVal) (g : ObjGen Gen) (fill : Bool) (n : Nat) (m m' : ObjMap) : Prop where
  ok : MapOK c sub g fill m'
  keys : ∀ k ∈ keysKV m, k ∈ keysKV m'
  lower : m.length ≤ m'.length
  upper : m'.length ≤ m.length + n

theorem Grows.trans {n n' : Nat} {m m' m'' : ObjMap} (h : Grows c sub g fill n m m') (h' : Grows c sub g fill n' m' m'') :
    Grows c sub g fill (n + n') m m'' where
  ok := h'.ok
  keys := fun k hk => h'.keys k (h.keys k hk)
  lower := h.lower.trans h'.lower
  upper := by have := h.upper; have := h'.upper; omega

theorem Grows.refl {m : ObjMap} (h : MapOK c sub g fill m) : Grows c sub g fill 0 m m := ⟨h, fun _ h => h, le_refl _, le_refl _⟩

theorem Grows.insert {m : ObjMap} {k : String} {v : JVal} (h : MapOK c sub g fill m) (he : Entry c sub g fill k v) :
    Grows c sub g fill 1 m (insertKV m k v) where
  ok := h.insert he
  keys := fun k hk => keys_insertKV.2 (Or.inr hk)
  lower := le_length_insertKV
  upper := length_insertKV_le

theorem Grows.mono {n n' : Nat} {m m' : ObjMap} (h : Grows c sub g fill n m m') (hn : n ≤ n') : Grows c sub g fill n' m m' :=
  ⟨h.ok, h.keys, h.lower, by have := h.upper; omega⟩

theorem genKeys_grows (pre : String) (ks : List String) (hks : ∀ k ∈ ks, k ∈ g.required ∨ k ∈ keysKV g.props)
    (m : ObjMap) (hm : MapOK c sub g fill m) (s : GSt) :
    Post (genKeys c sub g pre ks m) s (fun m' _ => Grows c sub g fill ks.length m m' ∧ ∀ k ∈ ks, k ∈ keysKV m') := by
  induction ks generalizing m s with
  | nil => exact Post.pure ⟨Grows.refl hm, by simp⟩
  | cons k ks ih =>
    unfold genKeys
    refine Post.bind (fun v s' hv => ?_)
    have he := genKey_entry (fill := fill) (hks k (by simp)) hv
    have h1 := Grows.insert hm he
    refine Post.mono (ih (fun k' hk' => hks k' (by simp [hk'])) _ h1.ok s') (fun m' _ hm' => ?_)
    refine ⟨(h1.trans hm'.1).mono (by simp; omega), ?_⟩
    intro k' hk'
    rcases List.mem_cons.1 hk' with rfl | hk'
    · exact hm'.1.keys _ (keys_insertKV.2 (Or.inl rfl))
    · exact hm'.2 k' hk'

theorem genPatternProp_entry (hp : g.patProps ≠ []) {kv : String × JVal} {s s' : GSt}
    (h : genPatternProp c sub g s = .ok kv s') : Entry c sub g fill kv.1 kv.2 := by
  unfold genPatternProp at h
  rw [if_neg hp] at h
  obtain ⟨ks, s1, h1, h⟩ := bind_ok.1 h
  obtain ⟨rx, s2, h2, h⟩ := bind_ok.1 h
  have hrx : rx ∈ keysKV g.patProps :=
    (funkKeys_post _ _ _ ks s1 h1).mem_iff.1 (choice_post _ _ _ rx s2 h2)
  cases hl : lookupKV g.patProps rx with
  | none => exact (lookupKV_none.1 hl hrx).elim
  | some p =>
    obtain ⟨pg, ro⟩ := p
    cases ro with
    | none =>
      rw [hl] at h
      simp at h
      obtain ⟨rfl, _⟩ := h
      exact .badPattern (lookupKV_mem hl)
    | some rg =>
      rw [hl] at h
      obtain ⟨k, s3, h3, h⟩ := bind_ok.1 h
      obtain ⟨v, s4, h4, h⟩ := bind_ok.1 h
      simp at h
      obtain ⟨rfl, _⟩ := h
      exact .pattern (lookupKV_mem hl) ⟨k, s2, s3, h3, rfl⟩ ⟨s3, s4, h4⟩

theorem genPatterns_grows (hp : g.patProps ≠ []) (n : Nat) (m : ObjMap) (hm : MapOK c sub g fill m) (s : GSt) :
    Post (genPatterns c sub g n m) s (fun m' _ => Grows c sub g fill n m m') := by
  induction n generalizing m s with
  | zero => exact Post.pure (Grows.refl hm)
  | succ n ih =>
    unfold genPatterns
    refine Post.bind (fun kv s' hkv => ?_)
    have h1 := Grows.insert hm (genPatternProp_entry hp hkv)
    exact Post.mono (ih _ h1.ok s') (fun m' _ hm' => (h1.trans hm').mono (by omega))

theorem genNumbered_grows (gen : Gen) (pre : String)
    (hent : ∀ (i : Nat) v, Produced sub gen v → Entry c sub g fill s!"{pre}_{i}" v) (n i : Nat) (m : ObjMap)
    (hm : MapOK c sub g fill m) (s : GSt) :
    Post (genNumbered sub gen pre n i m) s (fun m' _ => Grows c sub g fill n m m') := by
  induction n generalizing i m s with
  | zero => exact Post.pure (Grows.refl hm)
  | succ n ih =>
    unfold genNumbered
    refine Post.bind (fun v s' hv => ?_)
    have h1 := Grows.insert hm (hent i v ⟨s, s', hv⟩)
    exact Post.mono (ih _ _ h1.ok s') (fun m' _ hm' => (h1.trans hm').mono (by omega))

theorem genFallback_grows (hp : g.patProps = []) (hd : g.disallowAdditional = false) (ha : g.additional = none)
    (mn : Int) (n i : Nat) (m : ObjMap) (hm : MapOK c sub g fill m) (s : GSt) :
    Post (genFallback c sub mn n i m) s (fun m' _ => Grows c sub g fill n m m') := by
  induction n generalizing i m s with
  | zero => exact Post.pure (Grows.refl hm)
  | succ n ih =>
    unfold genFallback
    split
    · exact Post.mono (ih _ _ hm s) (fun m' _ hm' => hm'.mono (by omega))
    · rename_i hsup
      refine Post.bind (fun v s' hv => ?_)
      have hsup' : c.o.suppressFallbackValues = false := by
        cases h : c.o.suppressFallbackValues with
        | false => rfl
        | true => exact (hsup (Or.inl h)).elim
      have h1 := Grows.insert hm (.fallback i hp hd ha hsup' rfl ⟨s, s', hv⟩)
      exact Post.mono (ih _ _ h1.ok s') (fun m' _ hm' => (h1.trans hm').mono (by omega))

theorem Entry.mono {k : String} {v : JVal} (h : Entry c sub g false k v) : Entry c sub g fill k v := by
  cases h with
  | declared h1 h2 => exact .declared h1 h2
  | undeclared n pre h1 h2 h3 => exact .undeclared n pre h1 h2 h3
  | pattern h1 h2 h3 => exact .pattern h1 h2 h3
  | badPattern h1 => exact .badPattern h1
  | additional i h1 h2 h3 h4 h5 => exact .additional i h1 h2 h3 h4 h5
  | fallback i h1 h2 h3 h4 h5 h6 => exact .fallback i h1 h2 h3 h4 h5 h6
  | filler i h1 _ _ _ => cases h1

theorem MapOK.weaken {m : ObjMap} (h : MapOK c sub g false m) : MapOK c sub g fill m :=
  ⟨h.nodup, fun k v hk => (h.entries k v hk).mono⟩

/-- No invented filler name is a name of the schema. -/
structure FillersFree (c : Ctx) (g : ObjGen Gen) : Prop where
  required : ∀ i : Nat, s!"min_filler_{i}" ∉ g.required
  declared : ∀ i : Nat, s!"min_filler_{i}" ∉ keysKV g.props
  pattern : ∀ rx pg rg, (rx, (pg, some rg)) ∈ g.patProps → ∀ i : Nat, ¬ ProducedKey c.w rg s!"min_filler_{i}"

theorem filler_ne_additional (i j : Nat) : s!"min_filler_{i}" ≠ s!"additional_{j}" := by
  intro h
  have := congrArg String.toList h
  simp [String.toList_append, toString] at this

theorem filler_ne_fallback (i j : Nat) : s!"min_filler_{i}" ≠ s!"fallback_{j}" := by
  intro h
  have := congrArg String.toList h
  simp [String.toList_append, toString] at this

theorem filler_ne_empty (i : Nat) : s!"min_filler_{i}" ≠ "" := by
  intro h
  have := congrArg String.toList h
  simp [String.toList_append, toString] at this

theorem numbered_inj (pre : String) (i j : Nat) (h : s!"{pre}_{i}" = s!"{pre}_{j}") : i = j := by
  simpa using h

/-- Before the fillers are added no name is a filler name. -/
theorem MapOK.no_filler {m : ObjMap} (hf : FillersFree c g) (h : MapOK c sub g false m) (i : Nat) :
    s!"min_filler_{i}" ∉ keysKV m := by
  intro hk
  obtain ⟨v, hv⟩ := mem_keysKV.1 hk
  have he := h.entries _ v hv
  generalize hname : s!"min_filler_{i}" = name at he
  cases he with
  | declared h1 _ => exact hf.declared i (hname ▸ mem_keysKV.2 ⟨_, lookupKV_mem h1⟩)
  | undeclared _ _ h1 _ _ => exact hf.required i (hname ▸ h1)
  | pattern h1 h2 _ => exact hf.pattern _ _ _ h1 i (hname ▸ h2)
  | badPattern _ => exact filler_ne_empty i hname
  | additional j _ _ _ h4 _ => exact filler_ne_additional i j (hname.trans h4)
  | fallback j _ _ _ _ h5 _ => exact filler_ne_fallback i j (hname.trans h5)
  | filler _ h1 _ _ _ => cases h1

theorem genNumbered_length (sub : Gen → M JVal) (gen : Gen) (pre : String) (n i : Nat) (m : ObjMap)
    (hfresh : ∀ j : Nat, i ≤ j → s!"{pre}_{j}" ∉ keysKV m) (s : GSt) :
    Post (genNumbered sub gen pre n i m) s (fun m' _ => m'.length = m.length + n) := by
  induction n generalizing i m s with
  | zero => exact Post.pure rfl
  | succ n ih =>
    unfold genNumbered
    refine Post.bind (fun v s' hv => ?_)
    refine Post.mono (ih (i + 1) _ ?_ s') (fun m' _ hm' => ?_)
    · intro j hj hk
      rcases keys_insertKV.1 hk with h | h
      · have := numbered_inj _ _ _ h; omega
      · exact hfresh j (by omega) h
    · rw [hm', length_insertKV, if_neg (hfresh i (le_refl _))]; omega

/-- The filler stage. -/
theorem objFill_grows (hx : g.patProps ≠ [] ∨ g.disallowAdditional = false) (mn : Int) (m : ObjMap)
    (hm : MapOK c sub g false m) (s : GSt) :
    Post (objFill sub g mn m) s (fun v _ => ∃ m', v = .obj m' ∧ Grows c sub g true (mn - goLen m).toNat m m' ∧
      (FillersFree c g → mn ≤ goLen m') ∧ (mn ≤ 0 → MapOK c sub g false m')) := by
  unfold objFill
  split
  · rename_i h
    refine Post.bind (fun m' s' hm' => Post.pure ⟨m', rfl, ?_, fun hf => ?_, fun h0 => ?_⟩)
    · refine genNumbered_grows _ "min_filler" (fun i v hv => .filler i rfl hx rfl ?_) _ _ m hm.weaken s m' s' hm'
      cases ha : g.additional with
      | none => rw [ha] at hv; exact hv
      | some a => rw [ha] at hv; exact hv
    · have := genNumbered_length _ _ _ _ _ _ (fun j _ => hm.no_filler hf j) s m' s' hm'
      unfold goLen at *
      omega
    · unfold goLen at h
      omega
  · rename_i h
    exact Post.pure ⟨m, rfl, (Grows.refl hm.weaken).mono (by omega), fun _ => by omega, fun _ => hm⟩

theorem objExtras_grows (target : Int) (m : ObjMap) (hm : MapOK c sub g false m) (s : GSt) :
    Post (objExtras c sub g target m) s (fun v _ => ∃ m', v = .obj m' ∧ MapOK c sub g true m' ∧
      (∀ k ∈ keysKV m, k ∈ keysKV m') ∧ m.length ≤ m'.length ∧
      (goLen m' ≤ goLen m + max 0 target ∨ goLen m' ≤ (objBounds c g).1) ∧
      ((g.patProps ≠ [] ∨ g.disallowAdditional = false) → FillersFree c g → (objBounds c g).1 ≤ goLen m') ∧
      ((objBounds c g).1 ≤ 0 → MapOK c sub g false m')) := by
  unfold objExtras
  have hfill : ∀ (n : Nat) (m1 : ObjMap) (s1 : GSt), n = target.toNat → Grows c sub g false n m m1 →
      (g.patProps ≠ [] ∨ g.disallowAdditional = false) →
      Post (objFill sub g (objBounds c g).1 m1) s1 (fun v _ => ∃ m', v = .obj m' ∧ MapOK c sub g true m' ∧
      (∀ k ∈ keysKV m, k ∈ keysKV m') ∧ m.length ≤ m'.length ∧
      (goLen m' ≤ goLen m + max 0 target ∨ goLen m' ≤ (objBounds c g).1) ∧
      ((g.patProps ≠ [] ∨ g.disallowAdditional = false) → FillersFree c g → (objBounds c g).1 ≤ goLen m') ∧
      ((objBounds c g).1 ≤ 0 → MapOK c sub g false m')) := by
    intro n m1 s1 hn h1 hx
    refine Post.mono (objFill_grows hx _ m1 h1.ok s1) ?_
    rintro v _ ⟨m', rfl, h2, h3, h4⟩
    refine ⟨m', rfl, h2.ok, fun k hk => h2.keys k (h1.keys k hk), h1.lower.trans h2.lower, ?_, fun _ => h3, h4⟩
    have := h1.upper
    have := h2.upper
    unfold goLen at *
    omega
  split
  · rename_i hp
    refine Post.bind (fun m1 s1 h1 => ?_)
    exact hfill _ m1 s1 rfl (genPatterns_grows hp _ m hm s m1 s1 h1) (Or.inl hp)
  · rename_i hp
    have hp : g.patProps = [] := by simpa using hp
    split
    · rename_i hd
      refine Post.pure ⟨m, rfl, hm.weaken, fun _ h => h, le_refl _, Or.inl (by omega), ?_, fun _ => hm⟩
      rintro (h | h)
      · exact (h hp).elim
      · rw [hd] at h; cases h
    · rename_i hd
      have hd : g.disallowAdditional = false := by simpa using hd
      cases ha : g.additional with
      | some a =>
        refine Post.bind (fun m1 s1 h1 => ?_)
        exact hfill _ m1 s1 rfl (genNumbered_grows a "additional"
          (fun i v hv => .additional i hp hd ha rfl hv) _ _ m hm s m1 s1 h1) (Or.inr hd)
      | none =>
        refine Post.bind (fun m1 s1 h1 => ?_)
        exact hfill _ m1 s1 rfl (genFallback_grows hp hd ha _ _ _ m hm s m1 s1 h1) (Or.inr hd)

theorem objTarget_post (s : GSt) : Post (objTarget c g) s (fun t _ =>
    maxInt 0 ((objBounds c g).1 - goLen g.required) ≤ t ∧
    t ≤ maxInt 0 ((objBounds c g).2 - goLen g.required)) := by
  unfold objTarget
  refine Post.bind (fun t s1 ht => Post.bind (fun b s2 hb => Post.pure ?_))
  have hr := randomInt_post _ _ _ _ t s1 ht
  have hb : (objBounds c g).1 ≤ (objBounds c g).2 ∨ (objBounds c g).2 < (objBounds c g).1 := by omega
  split
  · constructor
    · exact le_refl _
    · rcases hr with h | h
      · rw [h.1]
      · exact (h.1.trans h.2.le)
  · rcases hr with h | h
    · exact ⟨by rw [h.2], by rw [h.2, ← h.1]⟩
    · exact ⟨h.1, h.2.le⟩

end stages

/-- The full description of a generated object (before cutoff): distinct keys, all entries accounted for,
all required names present, and the number of properties bounded above and below. -/
structure ObjectOK (c : Ctx) (sub : Gen → M JVal) (g : ObjGen Gen) (m : ObjMap) : Prop where
  ok : MapOK c sub g true m
  required : ∀ k ∈ g.required, k ∈ keysKV m
  upper : goLen m ≤ max (max (goLen g.required) (objBounds c g).2) (objBounds c g).1
  lower : (g.patProps ≠ [] ∨ g.disallowAdditional = false) → FillersFree c g → (objBounds c g).1 ≤ goLen m
  chosen : (keysKV g.props).Nodup → g.required = [] → min (goLen g.props) (objBounds c g).1 ≤ goLen m
  unfilled : (objBounds c g).1 ≤ 0 → MapOK c sub g false m

theorem objectGenerate_post (c : Ctx) (sub : Gen → M JVal) (g : ObjGen Gen) (s : GSt) :
    Post (objectGenerate c sub g) s (fun v _ =>
      (v = .null ∧ shouldCutoff c.o (s.complexity + 1) = true) ∨
      (shouldCutoff c.o (s.complexity + 1) = false ∧ ∃ m, v = .obj m ∧ ObjectOK c sub g m)) := by
  intro v s' h
  unfold objectGenerate at h
  obtain ⟨_, s1, h1, h⟩ := bind_ok.1 h
  simp [tick] at h1
  subst h1
  obtain ⟨b, s2, h2, h⟩ := bind_ok.1 h
  simp [cutoff] at h2
  obtain ⟨hb, rfl⟩ := h2
  cases b with
  | true =>
    rw [if_pos rfl] at h
    obtain ⟨_, s3, h3, h⟩ := bind_ok.1 h
    simp at h
    exact Or.inl ⟨h.1.symm, hb⟩
  | false =>
    rw [if_neg (by simp)] at h
    right
    refine ⟨hb, ?_⟩
    obtain ⟨acc, s3, h3, h⟩ := bind_ok.1 h
    obtain ⟨ks, s4, h4, h⟩ := bind_ok.1 h
    obtain ⟨target, s5, h5, h⟩ := bind_ok.1 h
    obtain ⟨chosen, s6, h6, h⟩ := bind_ok.1 h
    obtain ⟨acc2, s7, h7, h⟩ := bind_ok.1 h
    have hempty : MapOK c sub g false [] := ⟨by simp [keysKV], by simp⟩
    have p3 := genKeys_grows "required" g.required (fun k hk => Or.inl hk) [] hempty _ acc s3 h3
    have p4 := funkKeys_post _ _ _ ks s4 h4
    have p5 := objTarget_post _ target s5 h5
    have p6 := stringChoiceMultiple_post _ _ _ _ chosen s6 h6
    obtain ⟨q1, q2, q3, p, q4, q5⟩ := p6
    have hchosen : ∀ k ∈ chosen, k ∈ g.required ∨ k ∈ keysKV g.props := by
      intro k hk
      rw [q5] at hk
      have := q4.mem_iff.1 (List.mem_of_mem_take hk)
      rw [mem_uniqString, List.mem_append] at this
      rcases this with h | h
      · exact Or.inl h
      · exact Or.inr (p4.mem_iff.1 h)
    have p7 := genKeys_grows "optional" chosen hchosen acc p3.1.ok _ acc2 s7 h7
    obtain ⟨m, rfl, hm, hkeys, hlow, hup, hmin, hunf⟩ := objExtras_grows _ acc2 p7.1.ok _ v s' h
    refine ⟨m, rfl, hm, fun k hk => hkeys k (p7.1.keys k (p3.2 k hk)), ?_, hmin, ?_, hunf⟩
    · have u3 := p3.1.upper
      have u7 := p7.1.upper
      simp only [List.length_nil] at u3
      unfold maxInt at p5
      unfold minInt at q3
      unfold goLen at *
      split at p5 <;> split at p5 <;> split at q3 <;> omega
    · intro hnd hr
      have hcn : chosen.Nodup := by
        rw [q5]
        exact (q4.nodup_iff.2 (nodup_uniqString _)).sublist (List.take_sublist _ _)
      have hsub : chosen ⊆ keysKV m := fun k hk => hkeys k (p7.2 k hk)
      have hle := (List.subperm_of_subset hcn hsub).length_le
      rw [length_keysKV] at hle
      have hlen : g.props.length ≤ (uniqString (g.required ++ ks)).length := by
        have hks : ks.Nodup := p4.nodup_iff.2 hnd
        have := (List.subperm_of_subset hks
          (fun k hk => mem_uniqString.2 (List.mem_append.2 (Or.inr hk)) : ks ⊆ uniqString (g.required ++ ks))).length_le
        rw [p4.length_eq, length_keysKV] at this
        exact this
      rw [hr] at p5
      unfold maxInt at p5
      unfold minInt at q3
      unfold goLen at *
      simp only [List.length_nil] at p5
      split at p5 <;> split at p5 <;> split at q3 <;> omega

/-- Generating an object unfolds to `objectGenerate`. -/
theorem generate_obj_post (c : Ctx) (n : Nat) (g : ObjGen Gen) (s : GSt) (v : JVal) (s' : GSt)
    (h : generate c n (.obj g) s = .ok v s') :
    ∃ n', n = n' + 1 ∧
    ((v = .null ∧ shouldCutoff c.o (s.complexity + 1) = true) ∨
      (shouldCutoff c.o (s.complexity + 1) = false ∧ ∃ m, v = .obj m ∧ ObjectOK c (generate c n') g m)) := by
  cases n with
  | zero => simp [generate] at h
  | succ n => exact ⟨n, rfl, objectGenerate_post c (generate c n) g s v s' h⟩

/-- **C09.** An object generated before the cutoff contains every required name. -/
theorem C09_required_present (c : Ctx) (n : Nat) (g : ObjGen Gen) (s : GSt) (v : JVal) (s' : GSt)
    (h : generate c n (.obj g) s = .ok v s') (hcut : shouldCutoff c.o (s.complexity + 1) = false) :
    ∃ fields, v = .obj fields ∧ ∀ k ∈ g.required, ∃ x, (k, x) ∈ fields := by
  obtain ⟨n', _, h1 | ⟨_, m, rfl, hok⟩⟩ := generate_obj_post c n g s v s' h
  · rw [hcut] at h1; cases h1.2
  · exact ⟨m, rfl, fun k hk => mem_keysKV.1 (hok.required k hk)⟩

/-- Objects have distinct keys (so that they denote JSON objects). -/
theorem C09_object_keys_distinct (c : Ctx) (n : Nat) (g : ObjGen Gen) (s : GSt) (fields : List (String × JVal)) (s' : GSt)
    (h : generate c n (.obj g) s = .ok (.obj fields) s') : (fields.map Prod.fst).Nodup := by
  obtain ⟨n', _, h1 | ⟨_, m, hm, hok⟩⟩ := generate_obj_post c n g s _ s' h
  · cases h1.1
  · cases hm; exact hok.ok.nodup

/-- **C10.** With `additionalProperties: false` and no `patternProperties` every generated name is declared or
required. -/
theorem C10_additionalProperties_false (c : Ctx) (n : Nat) (g : ObjGen Gen) (s : GSt)
    (fields : List (String × JVal)) (s' : GSt) (hd : g.disallowAdditional = true) (hp : g.patProps = [])
    (h : generate c n (.obj g) s = .ok (.obj fields) s') :
    ∀ k x, (k, x) ∈ fields → (∃ pg, (k, pg) ∈ g.props) ∨ k ∈ g.required := by
  obtain ⟨n', _, h1 | ⟨_, m, hm, hok⟩⟩ := generate_obj_post c n g s _ s' h
  · cases h1.1
  · cases hm
    intro k x hkx
    cases hok.ok.entries k x hkx with
    | declared hl _ => exact Or.inl ⟨_, lookupKV_mem hl⟩
    | undeclared _ _ hr _ _ => exact Or.inr hr
    | pattern hm' _ _ => rw [hp] at hm'; cases hm'
    | badPattern hm' => rw [hp] at hm'; cases hm'
    | additional _ _ hd' _ _ _ => rw [hd] at hd'; cases hd'
    | fallback _ _ hd' _ _ _ _ => rw [hd] at hd'; cases hd'
    | filler _ _ hx _ _ =>
      rcases hx with hx | hx
      · exact (hx hp).elim
      · rw [hd] at hx; cases hx

/-- The condition under which `maxProperties` is honoured: the effective minimum does not exceed it. -/
theorem objBounds_max (c : Ctx) (g : ObjGen Gen) (hmax : 0 < g.maxProps)
    (hmin : g.minProps ≤ g.maxProps) (hdef : g.minProps = 0 → c.o.defaultObjectMinProperties ≤ g.maxProps) :
    (objBounds c g).2 = g.maxProps ∧ (objBounds c g).1 ≤ g.maxProps := by
  have h1 : getInt [g.maxProps, c.o.defaultObjectMaxProperties] = g.maxProps := by
    unfold getInt; rw [if_pos (by omega)]
  have h2 : getInt [g.minProps, c.o.defaultObjectMinProperties] ≤ g.maxProps := by
    unfold getInt
    by_cases h0 : g.minProps = 0
    · rw [if_neg (by simpa using h0)]
      have := hdef h0
      unfold getInt
      split
      · exact this
      · unfold getInt; omega
    · rw [if_pos h0]; exact hmin
  unfold objBounds
  simp only [h1]
  exact ⟨if_neg (by omega), h2⟩

/-- **C11.** A generated object has at most `maxProperties` properties, for a positive `maxProperties` that is at
least the number of required names and `minProperties` (which the parser checks) and at least the configured
default minimum. -/
theorem C11_maxProperties (c : Ctx) (n : Nat) (g : ObjGen Gen) (s : GSt) (fields : List (String × JVal)) (s' : GSt)
    (hmax : 0 < g.maxProps) (hreq : goLen g.required ≤ g.maxProps) (hmin : g.minProps ≤ g.maxProps)
    (hdef : g.minProps = 0 → c.o.defaultObjectMinProperties ≤ g.maxProps)
    (h : generate c n (.obj g) s = .ok (.obj fields) s') : goLen fields ≤ g.maxProps := by
  obtain ⟨n', _, h1 | ⟨_, m, hm, hok⟩⟩ := generate_obj_post c n g s _ s' h
  · cases h1.1
  · cases hm
    obtain ⟨h2, h3⟩ := objBounds_max c g hmax hmin hdef
    have := hok.upper
    omega

/-- **C12.** A generated object has at least `minProperties` properties when additional names are allowed (or
there are `patternProperties`) and no name of the schema is one of the invented filler names. -/
theorem C12_minProperties (c : Ctx) (n : Nat) (g : ObjGen Gen) (s : GSt) (fields : List (String × JVal)) (s' : GSt)
    (hmin : g.minProps ≠ 0) (hopen : g.patProps ≠ [] ∨ g.disallowAdditional = false) (hfree : FillersFree c g)
    (h : generate c n (.obj g) s = .ok (.obj fields) s') : g.minProps ≤ goLen fields := by
  obtain ⟨n', _, h1 | ⟨_, m, hm, hok⟩⟩ := generate_obj_post c n g s _ s' h
  · cases h1.1
  · cases hm
    have := hok.lower hopen hfree
    unfold objBounds getInt at this
    simp only [if_pos hmin] at this
    exact this

/-- **C12, closed objects.**  With `additionalProperties: false` the number of properties is only guaranteed when
nothing is required or when the required names alone reach the minimum; see `C12_closed_object_violation`. -/
theorem C12_minProperties_closed_partial (c : Ctx) (n : Nat) (g : ObjGen Gen) (s : GSt) (fields : List (String × JVal))
    (s' : GSt) (hmin : g.minProps ≠ 0) (hprops : (g.props.map Prod.fst).Nodup)
    (hreq : (g.required = [] ∧ g.minProps ≤ goLen g.props) ∨ (g.required.Nodup ∧ g.minProps ≤ goLen g.required))
    (h : generate c n (.obj g) s = .ok (.obj fields) s') : g.minProps ≤ goLen fields := by
  obtain ⟨n', _, h1 | ⟨_, m, hm, hok⟩⟩ := generate_obj_post c n g s _ s' h
  · cases h1.1
  · cases hm
    rcases hreq with ⟨hr, hle⟩ | ⟨hr, hle⟩
    · have := hok.chosen hprops hr
      unfold objBounds getInt at this
      simp only [if_pos hmin] at this
      omega
    · have := (List.subperm_of_subset hr (fun k hk => hok.required k hk)).length_le
      rw [length_keysKV] at this
      unfold goLen at *
      omega

/-- **C13.** Every value stored under a declared name comes from that property's generator, unless
the name is one the generator itself can invent: a filler name, `additional_i`, `fallback_i`, or a name generated
from a pattern. -/
theorem C13_declared_values (c : Ctx) (n : Nat) (g : ObjGen Gen) (s : GSt) (fields : List (String × JVal)) (s' : GSt)
    (h : generate c n (.obj g) s = .ok (.obj fields) s') (k : String) (pg : Gen) (hk : lookupKV g.props k = some pg)
    (hfill : ∀ i : Nat, k ≠ s!"min_filler_{i}") (hadd : ∀ i : Nat, k ≠ s!"additional_{i}")
    (hfall : ∀ i : Nat, k ≠ s!"fallback_{i}")
    (hpat : ∀ rx p ro, (rx, (p, ro)) ∈ g.patProps → ∃ rg, ro = some rg ∧ ¬ ProducedKey c.w rg k) :
    ∀ x, (k, x) ∈ fields → ∃ n', n = n' + 1 ∧ ∃ s1 s2, generate c n' pg s1 = .ok x s2 := by
  obtain ⟨n', hn, h1 | ⟨_, m, hm, hok⟩⟩ := generate_obj_post c n g s _ s' h
  · cases h1.1
  · cases hm
    intro x hx
    refine ⟨n', hn, ?_⟩
    cases hok.ok.entries k x hx with
    | declared hl hpr => rw [hk] at hl; cases hl; exact hpr
    | undeclared _ _ _ hnk _ => exact (hnk (mem_keysKV.2 ⟨_, lookupKV_mem hk⟩)).elim
    | pattern hm' hp _ =>
      obtain ⟨rg, h1, h2⟩ := hpat _ _ _ hm'
      cases h1
      exact (h2 hp).elim
    | badPattern hm' =>
      obtain ⟨rg, h1, h2⟩ := hpat _ _ _ hm'
      cases h1
    | additional i _ _ _ hk' _ => exact (hadd i hk').elim
    | fallback i _ _ _ _ hk' _ => exact (hfall i hk').elim
    | filler i _ _ hk' _ => exact (hfill i hk').elim

/-! ## Concrete runs -/

/-- Default options and the example world, no references. -/
def demoCtx : Ctx := ⟨demoWorld, withGeneratorOptionsDefaults {}, fun _ _ => none⟩

/-- The names of a generated object. -/
def keysOf : Res GSt JVal → Option (List String)
  | .ok (.obj m) _ => some (m.map Prod.fst)
  | _ => none

/-- The number of properties of a generated object. -/
def objLen : Res GSt JVal → Option Nat
  | .ok (.obj m) _ => some m.length
  | _ => none

theorem exists_of_objLen {r : Res GSt JVal} {n : Nat} (h : objLen r = some n) :
    ∃ m s', r = .ok (.obj m) s' ∧ m.length = n := by
  unfold objLen at h
  split at h
  · exact ⟨_, _, rfl, by simpa using h⟩
  · cases h

theorem exists_of_keysOf {r : Res GSt JVal} {ks : List String} (h : keysOf r = some ks) :
    ∃ m s', r = .ok (.obj m) s' ∧ m.map Prod.fst = ks := by
  unfold keysOf at h
  split at h
  · exact ⟨_, _, rfl, by simpa using h⟩
  · cases h

/-- The value is an object with `null` under the given name. -/
def isNullAt (k : String) : Res GSt JVal → Bool
  | .ok (.obj m) _ => match lookupKV m k with | some .null => true | _ => false
  | _ => false

theorem exists_of_isNullAt {r : Res GSt JVal} {k : String} (h : isNullAt k r = true) :
    ∃ m s', r = .ok (.obj m) s' ∧ (k, JVal.null) ∈ m := by
  unfold isNullAt at h
  split at h
  · rename_i m s'
    split at h
    · rename_i hl
      exact ⟨m, s', rfl, lookupKV_mem hl⟩
    · cases h
  · cases h

/-- `{"properties": {"a": bool, "b": null}, "required": ["a"], "minProperties": 3, "maxProperties": 4}` -/
def demoObj : ObjGen Gen :=
  { props := [("a", .bool), ("b", .null)], required := ["a"], minProps := 3, maxProps := 4 }

/-- C09, C11, C12, C13: the hypotheses hold of a run that produces a three-property object. -/
example : keysOf (generate demoCtx 3 (.obj demoObj) {}) = some ["a", "b", "min_filler_2"] ∧
    shouldCutoff demoCtx.o (({} : GSt).complexity + 1) = false ∧ 0 < demoObj.maxProps ∧
    goLen demoObj.required ≤ demoObj.maxProps ∧ demoObj.minProps ≤ demoObj.maxProps := by decide +kernel

example : FillersFree demoCtx demoObj where
  required := by
    intro i h
    have h : s!"min_filler_{i}" = "a" := by simpa [demoObj] using h
    have := congrArg String.toList h
    simp [String.toList_append, toString] at this
  declared := by
    intro i h
    have h : s!"min_filler_{i}" = "a" ∨ s!"min_filler_{i}" = "b" := by simpa [demoObj, keysKV] using h
    rcases h with h | h <;>
    · have := congrArg String.toList h
      simp [String.toList_append, toString] at this
  pattern := by intro rx pg rg h; simp [demoObj] at h

/-- C10: a closed object. -/
example : keysOf (generate demoCtx 3 (.obj { demoObj with disallowAdditional := true }) {}) = some ["a", "b"] := by
  decide +kernel

/-- **C12 fails for closed objects.**  Properties a, b, c, d, required a, `minProperties: 3` and
`additionalProperties: false`: a run produces two properties although four are declared. -/
theorem C12_closed_object_violation :
    ∃ (c : Ctx) (n : Nat) (g : ObjGen Gen) (fields : List (String × JVal)) (s' : GSt),
      c.o = withGeneratorOptionsDefaults {} ∧
      g = { props := [("a", .null), ("b", .null), ("c", .null), ("d", .null)], required := ["a"],
            minProps := 3, maxProps := 4, disallowAdditional := true } ∧
      generate c n (.obj g) {} = .ok (.obj fields) s' ∧ goLen fields < g.minProps := by
  have h : objLen (generate ⟨{ demoWorld with seeded := fun _ => 0, ambient := fun i => if i ≤ 3 then i else 0 },
    withGeneratorOptionsDefaults {}, fun _ _ => none⟩ 3 (.obj
      { props := [("a", .null), ("b", .null), ("c", .null), ("d", .null)], required := ["a"],
        minProps := 3, maxProps := 4, disallowAdditional := true }) {}) = some 2 := by decide +kernel
  obtain ⟨m, s', h1, h2⟩ := exists_of_objLen h
  exact ⟨_, _, _, m, s', rfl, rfl, h1, by show goLen m < 3; unfold goLen; omega⟩

/-- **C10 fails with `patternProperties`.**  Only names matching `^x$` are allowed, but a filler name is added. -/
theorem C10_patternProperties_violation :
    ∃ (c : Ctx) (n : Nat) (g : ObjGen Gen) (fields : List (String × JVal)) (s' : GSt) (v : JVal),
      c.o = withGeneratorOptionsDefaults {} ∧
      g = { patProps := [("^x$", (.null, some (.cat [.empty, .lit [120], .empty])))], minProps := 3, maxProps := 4,
            disallowAdditional := true } ∧
      generate c n (.obj g) {} = .ok (.obj fields) s' ∧ ("min_filler_1", v) ∈ fields := by
  have h : keysOf (generate demoCtx 3 (.obj
      { patProps := [("^x$", (.null, some (.cat [.empty, .lit [120], .empty])))], minProps := 3, maxProps := 4,
        disallowAdditional := true }) {}) = some ["x", "min_filler_1", "min_filler_2"] := by decide +kernel
  obtain ⟨m, s', h1, h2⟩ := exists_of_keysOf h
  have h3 : "min_filler_1" ∈ keysKV m := by unfold keysKV; rw [h2]; simp
  obtain ⟨v, hv⟩ := mem_keysKV.1 h3
  exact ⟨_, _, _, m, s', v, rfl, rfl, h1, hv⟩

/-- **C11 needs its condition on the options**: with a configured default minimum above `maxProperties` the
maximum is exceeded. -/
theorem C11_default_minimum_violation :
    ∃ (c : Ctx) (n : Nat) (g : ObjGen Gen) (fields : List (String × JVal)) (s' : GSt),
      c.o = withGeneratorOptionsDefaults { defaultObjectMinProperties := 3 } ∧ g = { maxProps := 2 } ∧
      generate c n (.obj g) {} = .ok (.obj fields) s' ∧ g.maxProps < goLen fields := by
  have h : objLen (generate { demoCtx with o := withGeneratorOptionsDefaults { defaultObjectMinProperties := 3 } } 3
      (.obj { maxProps := 2 }) {}) = some 3 := by decide +kernel
  obtain ⟨m, s', h1, h2⟩ := exists_of_objLen h
  exact ⟨_, _, _, m, s', rfl, rfl, h1, by show 2 < goLen m; unfold goLen; omega⟩

/-- **C11 fails for `maxProperties: 0`** (the empty object is the only valid one): the bound is ignored. -/
theorem C11_zero_violation :
    ∃ (c : Ctx) (n : Nat) (g : ObjGen Gen) (fields : List (String × JVal)) (s' : GSt),
      c.o = withGeneratorOptionsDefaults {} ∧ g = { maxProps := 0, additional := some .null } ∧
      generate c n (.obj g) {} = .ok (.obj fields) s' ∧ g.maxProps < goLen fields := by
  have h : objLen (generate demoCtx 3 (.obj { maxProps := 0, additional := some .null }) {}) = some 3 := by
    decide +kernel
  obtain ⟨m, s', h1, h2⟩ := exists_of_objLen h
  exact ⟨_, _, _, m, s', rfl, rfl, h1, by show 0 < goLen m; unfold goLen; omega⟩

/-- **C13 needs its conditions**: a declared property called `additional_0` is overwritten by a generated one. -/
theorem C13_collision_violation :
    ∃ (c : Ctx) (n : Nat) (g : ObjGen Gen) (fields : List (String × JVal)) (s' : GSt),
      c.o = withGeneratorOptionsDefaults {} ∧
      g = { props := [("additional_0", .bool)], required := ["additional_0"], additional := some .null, minProps := 4 } ∧
      generate c n (.obj g) {} = .ok (.obj fields) s' ∧ ("additional_0", JVal.null) ∈ fields := by
  have h : isNullAt "additional_0" (generate demoCtx 3 (.obj
      { props := [("additional_0", .bool)], required := ["additional_0"], additional := some .null, minProps := 4 }) {}) = true := by
    decide +kernel
  obtain ⟨m, s', h1, h2⟩ := exists_of_isNullAt h
  exact ⟨_, _, _, m, s', rfl, rfl, h1, h2⟩

end Chaff
