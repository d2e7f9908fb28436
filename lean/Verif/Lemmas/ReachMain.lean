import Verif.Lemmas.ReachGen
import Verif.Lemmas.Region
import Verif.Lemmas.ReachRegex
import Verif.Lemmas.Registered
/-!
# Attainable values are generated for suitable random numbers
-/

namespace Chaff
open Comp

variable {c : PEnv} {o : Opts} {root : SchemaNode} {R : Places} {pid : String} {ctx : Ctx} {stk : List String} {f j : Nat}

/-- The value, or one that is the same JSON, can be produced in at most `f` steps for each part, `j` of which were taken. -/
def CanSame (stk : List String) (ctx : Ctx) (f j : Nat) (g : Gen) (v : JVal) : Prop :=
  ∃ v', SameJson v v' ∧ CanGen stk ctx g (v.steps * f - j) v'

theorem JVal.steps_pos (v : JVal) : 1 ≤ v.steps := by cases v <;> simp [JVal.steps]

theorem canGen_pattern (g : StrGen) (x : RxGen) (h1 : g.format = "") (h2 : g.pattern ≠ "") (h3 : g.patternGen = some x)
    {t : List Char} (h : Can stk ctx (fun W _ => rxGenerate W x) 0 t) : CanGen stk ctx (.str g) 1 (.str (String.ofList t)) := by
  have h := Can.tick.bind (f := fun w _ _ => rxGenerate w x >>= fun t => (Pure.pure (.str (String.ofList t)) : M JVal))
    (Can.bind h (f := fun _ _ t => (Pure.pure (.str (String.ofList t)) : M JVal)) (b := .str (String.ofList t)) (l := 0)
      (Can.pure _))
  refine .step (h.congr 0 fun w n s _ hw => ?_)
  show stringGenerate { ctx with w := w } g s = _
  unfold stringGenerate
  rw [h1, h3, if_neg (by simp), if_pos h2]

mutual
theorem exhaustive_limits (a : RxArgs) (k : Nat) : ∀ r, Exhaustive { a with maxUnbounded := k } r ↔ Exhaustive a r
  | .quest r | .star r | .plus r | .repeat r _ _ | .capture r => by
    simp only [Exhaustive]; exact exhaustive_limits a k r
  | .concat rs | .alternate rs => by
    simp only [Exhaustive]; exact exhaustives_limits a k rs
  | .anyCharNotNL | .anyChar | .charClass _ | .emptyMatch | .literal _ | .beginLine | .endLine | .beginText | .endText
  | .wordBoundary | .noWordBoundary | .other => by simp only [Exhaustive]
theorem exhaustives_limits (a : RxArgs) (k : Nat) : ∀ rs, Exhaustives { a with maxUnbounded := k } rs ↔ Exhaustives a rs
  | [] => by simp only [Exhaustives]
  | r :: rs => by simp only [Exhaustives, exhaustive_limits a k r, exhaustives_limits a k rs]
end

/-- Every match of a pattern can be drawn by the generator that is built for it. -/
theorem can_regex {p : String} {r : Rx} {x : RxGen} {t : List Char}
    (hs : c.rxString.suppressRandomBytes = false ∨ ('.' ∉ p.toList ∧ '~' ∉ p.toList)) (hr : c.rxParse p.toList = some r)
    (he : Exhaustive c.rxString r)
    (hm : Matches [] (limited (repetitionLimits (some c.rxString)).1 (repetitionLimits (some c.rxString)).2 r) t [])
    (hb : newRegexGenerator c.rxParse c.rxString p.toList = .ok x) : Can stk ctx (fun W _ => rxGenerate W x) 0 t := by
  unfold newRegexGenerator at hb
  have hp : (if c.rxString.suppressRandomBytes = true then suppressDots p.toList else p.toList) = p.toList := by
    rcases hs with h | h
    · rw [h]; rfl
    · rw [suppressDots_id _ h.1 h.2, ite_self]
  simp only [hp, hr] at hb
  cases hi : c.rxString.initialize with
  | error e => rw [hi] at hb; cases hb
  | ok a =>
    rw [hi] at hb
    unfold RxArgs.initialize at hi
    by_cases hz : c.rxString.maxUnbounded < 1
    · have hz' : c.rxString.maxUnbounded = 0 := by omega
      simp only [if_pos hz] at hi
      split at hi
      · cases hi
      · cases hi
        refine can_rx _ r x hb ((exhaustive_limits _ _ r).2 he) [] t [] ?_
        simpa only [repetitionLimits, hz', if_true] using hm
    · have hz' : c.rxString.maxUnbounded ≠ 0 := by omega
      simp only [if_neg hz] at hi
      split at hi
      · cases hi
      · cases hi
        refine can_rx _ r x hb he [] t [] ?_
        simpa only [repetitionLimits, if_neg hz'] using hm

/-- How the values wanted and the values produced are related. -/
def Twin (f : Nat) (x : JVal) (p : Nat × JVal) : Prop := p.1 = x.steps * f ∧ SameJson x p.2

theorem costs_twin {l : List JVal} {ps : List (Nat × JVal)} (h : List.Forall₂ (Twin f) l ps) : costs ps = stepsItems l * f := by
  induction h with
  | nil => simp [costs, stepsItems]
  | cons h _ ih =>
    unfold costs at ih ⊢
    rw [List.map_cons, List.sum_cons, ih, h.1, stepsItems, Nat.add_mul]

theorem same_twin {l : List JVal} {ps : List (Nat × JVal)} (h : List.Forall₂ (Twin f) l ps) :
    List.Forall₂ SameJson l (ps.map Prod.snd) := by
  induction h with
  | nil => exact .nil
  | cons h _ ih => exact .cons h.2 ih

theorem tuple_twin {C : SchemaNode → Gen → Prop} {ns : List SchemaNode} {gs : List Gen} (h : List.Forall₂ C ns gs) :
    ∀ l : List JVal, l.length = ns.length →
    (∀ (i : Nat) n g x, ns[i]? = some n → l[i]? = some x → C n g → CanSame stk ctx f 0 g x) →
    ∃ ps, List.Forall₂ (Twin f) l ps ∧ List.Forall₂ (fun g p => CanGen stk ctx g p.1 p.2) gs ps := by
  induction h with
  | nil =>
    intro l hl _
    cases l with
    | nil => exact ⟨[], .nil, .nil⟩
    | cons x l => simp at hl
  | @cons n g ns gs h _ ih =>
    intro l hl hall
    cases l with
    | nil => simp at hl
    | cons x l =>
      obtain ⟨v', h1, h2⟩ := hall 0 n g x rfl rfl h
      obtain ⟨ps, h3, h4⟩ := ih l (by simpa using hl) fun i n g x hn hx hc => hall (i + 1) n g x (by simpa using hn) (by simpa using hx) hc
      exact ⟨(x.steps * f, v') :: ps, .cons ⟨rfl, h1⟩ h3, .cons h2 h4⟩

theorem items_twin {g : Gen} : ∀ l : List JVal, (∀ x ∈ l, CanSame stk ctx f 0 g x) →
    ∃ ps, List.Forall₂ (Twin f) l ps ∧ ∀ p ∈ ps, CanGen stk ctx g p.1 p.2
  | [], _ => ⟨[], .nil, by simp⟩
  | x :: l, h => by
    obtain ⟨v', h1, h2⟩ := h x (by simp)
    obtain ⟨ps, h3, h4⟩ := items_twin l fun y hy => h y (by simp [hy])
    refine ⟨(x.steps * f, v') :: ps, .cons ⟨rfl, h1⟩ h3, fun p hp => ?_⟩
    rcases List.mem_cons.1 hp with rfl | hp
    · exact h2
    · exact h4 p hp

theorem stepsItems_append (a b : List JVal) : stepsItems (a ++ b) = stepsItems a + stepsItems b := by
  induction a with
  | nil => simp [stepsItems]
  | cons x a ih => rw [List.cons_append, stepsItems, stepsItems, ih, Nat.add_assoc]

theorem distinct_same {l l' : List JVal} (h : List.Forall₂ SameJson l l') (hwf : ∀ x ∈ l, x.WF)
    (hp : l.Pairwise (fun x y => ¬ SameJson x y)) : l'.Pairwise (fun x y => x.jeq y = false) := by
  induction h with
  | nil => exact .nil
  | @cons x y l l' hxy hll ih =>
    rw [List.pairwise_cons] at hp ⊢
    refine ⟨fun z hz => ?_, ih (fun z hz => hwf z (by simp [hz])) hp.2⟩
    obtain ⟨u, hu, huz⟩ := forall₂_source hll hz
    rw [Bool.eq_false_iff]
    intro he
    have := sameJson_of_jeq y z (hxy.wf.1 (hwf x (by simp))) (huz.wf.1 (hwf u (by simp [hu]))) he
    exact hp.1 u hu (.trans hxy (.trans this (.symm huz)))

/-- How the members wanted and the members produced are related. -/
def TwinKV (f : Nat) (p : String × JVal) (q : String × (Nat × JVal)) : Prop := p.1 = q.1 ∧ Twin f p.2 q.2

theorem members_twin {Q : String → Nat × JVal → Prop} : ∀ m : List (String × JVal),
    (∀ p ∈ m, ∃ q, Twin f p.2 q ∧ Q p.1 q) → ∃ ms, List.Forall₂ (TwinKV f) m ms ∧ ∀ q ∈ ms, Q q.1 q.2
  | [], _ => ⟨[], .nil, by simp⟩
  | p :: m, h => by
    obtain ⟨q, h1, h2⟩ := h p (by simp)
    obtain ⟨ms, h3, h4⟩ := members_twin m fun y hy => h y (by simp [hy])
    refine ⟨(p.1, q) :: ms, .cons ⟨rfl, h1⟩ h3, fun r hr => ?_⟩
    rcases List.mem_cons.1 hr with rfl | hr
    · exact h2
    · exact h4 r hr

theorem costs_members {m : List (String × JVal)} {ms : List (String × (Nat × JVal))} (h : List.Forall₂ (TwinKV f) m ms) :
    costs (ms.map Prod.snd) = stepsMembers m * f ∧ keysKV ms = keysKV m ∧
    SameJson (.obj m) (.obj (ms.map fun p => (p.1, p.2.2))) := by
  refine ⟨?_, ?_, SameJson.obj_of ?_⟩
  · induction h with
    | nil => simp [costs, stepsMembers]
    | @cons p q m ms h _ ih =>
      unfold costs at ih ⊢
      obtain ⟨k, v⟩ := p
      rw [List.map_cons, List.map_cons, List.sum_cons, ih, h.2.1, stepsMembers, Nat.add_mul]
  · induction h with
    | nil => rfl
    | cons h _ ih =>
      unfold keysKV at ih ⊢
      rw [List.map_cons, List.map_cons, ih, h.1]
  · induction h with
    | nil => exact .nil
    | cons h _ ih => exact .cons ⟨h.1, h.2.2⟩ ih

/-- Members can be put into the order in which the code produces them. -/
theorem members_order {α : Type} {ms : List (String × α)} (hn : (keysKV ms).Nodup) {req : List String} (hr : req.Nodup)
    (hsub : ∀ k ∈ req, k ∈ keysKV ms) : ∃ rs qs, keysKV rs = req ∧ (rs ++ qs).Perm ms := by
  induction req generalizing ms with
  | nil => exact ⟨[], ms, rfl, .refl _⟩
  | cons k req ih =>
    obtain ⟨p, hp, rfl⟩ := List.mem_map.1 (hsub k (by simp))
    obtain ⟨a, b, rfl⟩ := List.append_of_mem hp
    have hperm : (a ++ p :: b).Perm (p :: (a ++ b)) := List.perm_middle
    have hk : (keysKV (a ++ p :: b)).Perm (p.1 :: keysKV (a ++ b)) := hperm.map Prod.fst
    have hnd := hk.nodup_iff.1 hn
    rw [List.nodup_cons] at hnd hr
    obtain ⟨rs, qs, h1, h2⟩ := ih (ms := a ++ b) hnd.2 hr.2 fun k' hk' => by
      have := hk.mem_iff.1 (hsub k' (by simp [hk']))
      rcases List.mem_cons.1 this with rfl | h
      · exact (hr.1 hk').elim
      · exact h
    refine ⟨p :: rs, qs, ?_, ?_⟩
    · show p.1 :: keysKV rs = _
      rw [h1]
    · exact (h2.cons p).trans hperm.symm

theorem forall₂_lookup' {C : SchemaNode → Gen → Prop} {p : List (String × SchemaNode)} {q : List (String × Gen)}
    (h : List.Forall₂ (fun p q => p.1 = q.1 ∧ C p.2 q.2) p q) {k : String} {m : SchemaNode} (hm : lookupKV p k = some m) :
    ∃ g, lookupKV q k = some g ∧ C m g := by
  obtain ⟨hk, hl⟩ := forall₂_lookup h
  cases hq : lookupKV q k with
  | none =>
    rw [lookupKV_none, ← hk] at hq
    exact (hq (List.mem_map.2 ⟨_, lookupKV_mem hm, rfl⟩)).elim
  | some g =>
    obtain ⟨m', hm', hc⟩ := hl k g hq
    rw [hm] at hm'
    cases hm'
    exact ⟨g, rfl, hc⟩

theorem forall₂_target {α β : Type} {S : α → β → Prop} {l : List α} {l' : List β} (h : List.Forall₂ S l l') {a : α}
    (ha : a ∈ l) : ∃ b ∈ l', S a b := by
  induction h with
  | nil => cases ha
  | cons h _ ih =>
    rcases List.mem_cons.1 ha with rfl | ha
    · exact ⟨_, by simp, h⟩
    · obtain ⟨b, hb, hs⟩ := ih ha
      exact ⟨b, by simp [hb], hs⟩

theorem Alone.undivided {n : SchemaNode} (h : Alone n) : Undivided n := ⟨h.allOf, h.anyOf, h.oneOf, h.ifN, h.not⟩

/-- The generator for one of the allowed types is used. -/
theorem allows_type {C : SchemaNode → Gen → Prop} {n : SchemaNode} {t : String} {g : Gen} (ha : Allows n t)
    (h : CNode c root R pid C n g) :
    ∃ g', CType c C n t g' ∧ ∀ k v, CanGen stk ctx g' k v → CanGen stk ctx g k v := by
  obtain ⟨ty, hty, hor⟩ := ha.type
  cases h with
  | allOf d ts m g h0 => exact (h0 ha.alone.allOf).elim
  | alternatives l gs h0 => rw [ha.alone.anyOf] at h0; cases h0
  | alternative d ts m g h0 => exact h0.elim (fun ⟨x, h, _⟩ => by rw [ha.alone.anyOf] at h; cases h) fun ⟨x, h, _⟩ => by rw [ha.alone.oneOf] at h; cases h
  | oneOf l gs fs h0 => rw [ha.alone.oneOf] at h0; cases h0
  | conditional x g ic h0 => rw [ha.alone.ifN] at h0; cases h0
  | excluded d ts m g fs h0 => exact (h0 ha.alone.not).elim
  | plain g _ h =>
    cases h with
    | ref r hr => rw [ha.alone.ref] at hr; cases hr
    | enumOne l x f hl => rw [ha.enum] at hl; cases hl
    | enum l f hl => rw [ha.enum] at hl; cases hl
    | const x _ hx => rw [ha.const] at hx; cases hx
    | typed t' g _ _ _ h4 h5 =>
      obtain ⟨h6, h7⟩ := h4 ty hty
      rcases hor with ⟨_, rfl⟩ | ⟨l, hl, _⟩
      · rw [← h7] at h5
        exact ⟨g, h5, fun _ _ h => h⟩
      · rw [h6] at hl; cases hl
    | types ts gs _ _ _ h4 h5 =>
      have h6 := h4 ty hty
      rcases hor with ⟨h7, _⟩ | ⟨l, hl, ht⟩
      · rw [h6] at h7; cases h7
      · rw [h6] at hl
        cases hl
        obtain ⟨g', hg', hc⟩ := forall₂_target h5 ht
        exact ⟨g', hc, fun _ _ h => canGen_multi hg' h⟩

theorem getInt_two (a b : Int) : getInt [a, b] = if a = 0 then b else a := by
  unfold getInt getInt getInt
  by_cases ha : a = 0 <;> by_cases hb : b = 0 <;> simp [ha, hb]

theorem getZero_getD {α : Type} (x : Option α) (d : α) : getZeroIfNil x d = x.getD d := by cases x <;> rfl

theorem reach_array (hj : j < f) {C : SchemaNode → Gen → Prop} {n : SchemaNode} {l : List JVal} {item contains : Option Gen}
    {tuple : List Gen} (hs : Supported c ctx.o root n) (hitem : OptC C (itemsNode n) item) (htuple : List.Forall₂ C (getZeroIfNil n.prefixItems []) tuple)
    (hcont : OptC C n.contains contains)
    (hc : n.contains = none) (hmc : n.minContains = none)
    (hopen : n.items.any (·.disallow) = false →
      InReach (orDefault n.minItems ctx.o.defaultArrayMinItems) (orDefault n.maxItems (n.minItems.getD 0 + 10)) (prefixLength n) l.length)
    (hclosed : n.items.any (·.disallow) = true → l.length = prefixLength n)
    (hdecl : ∀ (i : Nat) x, prefixLength n ≤ i → l[i]? = some x → ∃ d sub, n.items = some d ∧ d.node = some sub)
    (huniq : n.uniqueItems = some true → 0 < ctx.o.maximumUniqueGeneratorAttempts ∧ n.prefixItems.getD [] = [] ∧
        (∀ x ∈ l, x.WF) ∧ l.Pairwise (fun x y => ¬ SameJson x y))
    (hpre : ∀ p (i : Nat) x sub g, n.prefixItems = some p → p[i]? = some sub → l[i]? = some x → C sub g → CanSame stk ctx f 0 g x)
    (hit : ∀ d (i : Nat) x sub g, n.items = some d → d.node = some sub → d.disallow = false → prefixLength n ≤ i → l[i]? = some x →
        C sub g → CanSame stk ctx f 0 g x) :
    CanSame stk ctx f j (.arr (buildArray n item none contains none tuple)) (.arr l) := by
  rw [getZero_getD] at htuple
  have hle : prefixLength n ≤ l.length := by
    cases hd : n.items.any (·.disallow) with
    | true => rw [hclosed hd]
    | false => exact_mod_cast (hopen hd).2.1
  obtain ⟨ps, hp1, hp2⟩ := tuple_twin (ctx := ctx) (stk := stk) htuple (l.take (prefixLength n))
    (by rw [List.length_take]; exact Nat.min_eq_left hle) (by
      intro i n' g x hn hx hcg
      cases hpi : n.prefixItems with
      | none => rw [hpi] at hn; simp at hn
      | some p =>
        rw [hpi] at hn
        refine hpre p i x n' g hpi (by simpa using hn) ?_ hcg
        rw [List.getElem?_take] at hx
        split at hx
        · exact hx
        · cases hx)
  have hplen : ps.length = prefixLength n := by
    have := hp1.length_eq
    rw [List.length_take] at this
    omega
  have hdis : (buildArray n item none contains none tuple).disallowAdditional = n.items.any (·.disallow) := by
    show (match n.items with | some d => d.disallow | none => false) = _
    cases n.items <;> rfl
  cases hd : n.items.any (·.disallow) with
  | true =>
    have hl : l.take (prefixLength n) = l := List.take_of_length_le (by rw [hclosed hd])
    rw [hl] at hp1
    refine ⟨.arr (ps.map Prod.snd), SameJson.arr_of (same_twin hp1), ?_⟩
    have := canGen_tupleOnly (c := ctx) (stk := stk) (g := buildArray n item none contains none tuple) (by rw [hdis, hd]) hp2
    refine Can.mono this ?_
    rw [JVal.steps, costs_twin hp1, Nat.add_mul]
    omega
  | false =>
    obtain ⟨r1, r2, r3⟩ := hopen hd
    obtain ⟨qs, hq1, hq2⟩ := items_twin (ctx := ctx) (stk := stk) (g := itemGenOf (buildArray n item none contains none tuple))
      (l.drop (prefixLength n)) (by
        intro x hx
        obtain ⟨j, hj⟩ := List.mem_iff_getElem?.1 hx
        rw [List.getElem?_drop] at hj
        obtain ⟨d, sub, h1, h2⟩ := hdecl _ x (by omega) hj
        have h3 : d.disallow = false := by rw [h1] at hd; simpa using hd
        have h4 : itemsNode n = some sub := by unfold itemsNode; rw [h1]; simp [h3, h2]
        rw [h4] at hitem
        cases hitem with
        | some hc => exact hit d _ x sub _ h1 h2 h3 (by omega) hj hc)
    have hqlen : qs.length = l.length - prefixLength n := by
      have := hq1.length_eq
      rw [List.length_drop] at this
      omega
    have hall : List.Forall₂ (Twin f) l (ps ++ qs) := by
      have := List.rel_append hp1 hq1
      dsimp only at this
      rw [List.take_append_drop] at this
      exact this
    have hsame := same_twin hall
    refine ⟨.arr ((ps ++ qs).map Prod.snd), SameJson.arr_of hsame, ?_⟩
    have heff : effMinContains n = 0 := by
      unfold effMinContains
      rw [hc, hmc]
      simp [getZeroIfNil]
    have hrange : arrayRange n = (n.minItems.getD 0, if n.maxItems.getD 0 = 0 then n.minItems.getD 0 + 10 else n.maxItems.getD 0) := by
      have hmore : disallowsMore n = false := by
        unfold disallowsMore
        rw [hs.covered.additionalItems]
        cases hi : n.items with
        | none => rfl
        | some d => rw [hi] at hd; simpa using hd
      unfold arrayRange
      rw [if_neg (by rw [hmore]; simp)]
      simp only [heff, getInt_two, getZero_getD, defaultOffset]
      by_cases h0 : n.minItems.getD 0 = 0 <;> simp [h0]
    have hmin0 : 0 ≤ n.minItems.getD 0 := by
      cases hm : n.minItems with
      | none => simp
      | some k => simpa using hs.array.minimum k hm
    have hb1 : (arrBounds ctx (buildArray n item none contains none tuple)).1 = orDefault n.minItems ctx.o.defaultArrayMinItems := by
      show getInt [(arrayRange n).1, ctx.o.defaultArrayMinItems] = _
      rw [hrange, getInt_two]
      rfl
    have hb2 : orDefault n.maxItems (n.minItems.getD 0 + 10) <
        orDefault n.minItems ctx.o.defaultArrayMinItems ∨
        (arrBounds ctx (buildArray n item none contains none tuple)).2 = orDefault n.maxItems (n.minItems.getD 0 + 10) := by
      have e1 : getInt [(arrayRange n).2, ctx.o.defaultArrayMaxItems] = orDefault n.maxItems (n.minItems.getD 0 + 10) := by
        rw [hrange, getInt_two]
        unfold orDefault
        by_cases h0 : n.maxItems.getD 0 = 0
        · simp only [h0, if_true]
          rw [if_neg (by omega)]
        · simp only [h0, if_false]
      by_cases hlt : orDefault n.maxItems (n.minItems.getD 0 + 10) < orDefault n.minItems ctx.o.defaultArrayMinItems
      · exact .inl hlt
      · right
        have e2 : (arrBounds ctx (buildArray n item none contains none tuple)).2 =
            if getInt [(arrayRange n).2, ctx.o.defaultArrayMaxItems] < (arrBounds ctx (buildArray n item none contains none tuple)).1
            then (arrBounds ctx (buildArray n item none contains none tuple)).1 + ctx.o.defaultArrayMaxItems
            else getInt [(arrayRange n).2, ctx.o.defaultArrayMaxItems] := rfl
        rw [e2, hb1, e1, if_neg hlt]
    have hcn : contains = none := by
      rw [hc] at hcont
      cases hcont
      rfl
    have := canGen_array (c := ctx) (stk := stk) (g := buildArray n item none contains none tuple) (by rw [hdis, hd]) (by
        show (match n.unevaluatedItems with | some d => d.isFalse | none => false) = false
        rw [hs.covered.unevaluatedItems]) hcn heff hp2 hq2 (by
        intro hu
        have hu : getZeroIfNil n.uniqueItems false = true := hu
        have hu' : n.uniqueItems = some true := by
          cases h : n.uniqueItems with
          | none => rw [h] at hu; cases hu
          | some b => rw [h] at hu; cases b <;> simp_all [getZeroIfNil]
        obtain ⟨u1, -, u3, u4⟩ := huniq hu'
        exact ⟨u1, distinct_same hsame u3 u4⟩) (by rw [hb1]; omega) (by
        rw [hb1]
        rcases r3 with h | h
        · left; omega
        · rcases hb2 with h2 | h2
          · omega
          · right; rw [h2]; omega)
    have hcost : costs (ps ++ qs) = costs ps + costs qs := by unfold costs; simp
    refine Can.mono this ?_
    rw [JVal.steps, Nat.add_mul]
    have := costs_twin hall
    omega

theorem reach_object (hj : j < f) {C : SchemaNode → Gen → Prop} {n : SchemaNode} {m : List (String × JVal)}
    {pats : List (String × (Gen × Option RxGen))} {props : List (String × Gen)} {additional : Option Gen}
    (hs : Supported c ctx.o root n)
    (hprops : List.Forall₂ (fun p q => p.1 = q.1 ∧ C p.2 q.2) (getZeroIfNil n.properties []) props)
    (h0 : 0 ≤ ctx.o.defaultObjectMaxProperties)
    (hm : (keysKV m).Nodup) (hr : (n.required.getD []).Nodup)
    (hreq : ∀ k ∈ n.required.getD [], k ∈ keysKV m) (hdecl : ∀ k ∈ keysKV m, k ∈ keysKV (n.properties.getD []))
    (hreach : InReach (orDefault n.minProperties ctx.o.defaultObjectMinProperties)
        (orDefault n.maxProperties ctx.o.defaultObjectMaxProperties) (n.required.getD []).length m.length)
    (hmem : ∀ p k x sub g, n.properties = some p → (k, x) ∈ m → lookupKV p k = some sub → C sub g → CanSame stk ctx f 0 g x) :
    CanSame stk ctx f j (.obj (buildObject n pats props additional)) (.obj m) := by
  rw [getZero_getD] at hprops
  obtain ⟨ms, t1, t2⟩ := members_twin (Q := fun k q => ∃ pg, lookupKV props k = some pg ∧ CanGen stk ctx pg q.1 q.2) m (by
    rintro ⟨k, x⟩ hp
    have hk := hdecl k (List.mem_map.2 ⟨_, hp, rfl⟩)
    cases hl : lookupKV (n.properties.getD []) k with
    | none => exact (lookupKV_none.1 hl hk).elim
    | some sub =>
      obtain ⟨g, hg, hc⟩ := forall₂_lookup' hprops hl
      cases hpr : n.properties with
      | none => rw [hpr] at hl; simp [lookupKV] at hl
      | some p =>
        rw [hpr] at hl
        obtain ⟨v', e1, e2⟩ := hmem p k x sub g hpr hp hl hc
        exact ⟨(x.steps * f, v'), ⟨rfl, e1⟩, g, hg, e2⟩)
  obtain ⟨c1, c2, c3⟩ := costs_members t1
  obtain ⟨rs, qs, o1, o2⟩ := members_order (ms := ms) (by rw [c2]; exact hm) hr (by rw [c2]; exact hreq)
  have hkeys : (keysKV rs ++ keysKV qs).Nodup := by
    have : (keysKV (rs ++ qs)).Perm (keysKV ms) := o2.map Prod.fst
    rw [← c2] at hm
    have := this.nodup_iff.2 hm
    unfold keysKV at this ⊢
    rw [← List.map_append]
    exact this
  have hlen : (rs.length : Int) + qs.length = m.length := by
    have h1 := o2.length_eq
    have h2 := t1.length_eq
    rw [List.length_append] at h1
    omega
  have hrl : (rs.length : Int) = ((n.required.getD []).length : Nat) := by
    rw [← o1, length_keysKV]
  have hb1 : (objBounds ctx (buildObject n pats props additional)).1 = orDefault n.minProperties ctx.o.defaultObjectMinProperties := by
    show getInt [getZeroIfNil n.minProperties 0, ctx.o.defaultObjectMinProperties] = _
    rw [getInt_two, getZero_getD]
    rfl
  have e1 : getInt [getZeroIfNil n.maxProperties 0, ctx.o.defaultObjectMaxProperties] =
      orDefault n.maxProperties ctx.o.defaultObjectMaxProperties := by
    rw [getInt_two, getZero_getD]
    rfl
  have e2 : (objBounds ctx (buildObject n pats props additional)).2 =
      if getInt [getZeroIfNil n.maxProperties 0, ctx.o.defaultObjectMaxProperties] < (objBounds ctx (buildObject n pats props additional)).1
      then (objBounds ctx (buildObject n pats props additional)).1 + getInt [getZeroIfNil n.maxProperties 0, ctx.o.defaultObjectMaxProperties]
      else getInt [getZeroIfNil n.maxProperties 0, ctx.o.defaultObjectMaxProperties] := rfl
  have hmax0 : 0 ≤ orDefault n.maxProperties ctx.o.defaultObjectMaxProperties := by
    unfold orDefault
    split
    · exact h0
    · cases hk : n.maxProperties with
      | none => simp
      | some k => have := (hs.object.maximum k hk).1; simp; omega
  rw [hb1, e1] at e2
  obtain ⟨r1, r2, r3⟩ := hreach
  have := canGen_declared (c := ctx) (stk := stk) (g := buildObject n pats props additional) (rs := rs) (qs := qs) (by
      rw [o1]
      show _ = getZeroIfNil n.required []
      rw [getZero_getD]) (fun p hp => t2 p (o2.mem_iff.1 hp)) hkeys (by
      rw [e2, hb1]
      split <;> omega) (by rw [hb1]; omega) (by
      rw [e2, hb1]
      rcases r3 with h | h
      · left; omega
      · right
        rw [hlen]
        split <;> omega)
  refine ⟨_, .trans c3 (.order (o2.symm.map _)), ?_⟩
  have hcost : costs (rs.map Prod.snd) + costs (qs.map Prod.snd) = stepsMembers m * f := by
    rw [← c1]
    have h1 : (costs ((rs ++ qs).map Prod.snd)) = costs (ms.map Prod.snd) := by
      unfold costs
      exact ((o2.map Prod.snd).map Prod.fst).sum_eq
    rw [← h1]
    unfold costs
    simp
  refine Can.mono this ?_
  rw [JVal.steps, Nat.add_mul]
  omega

theorem refKey_inj {doc a b : String} (h : refKey doc a = refKey doc b) : a = b := by
  unfold refKey at h
  have := congrArg String.toList h
  simp only [String.toList_append, List.append_cancel_left_eq] at this
  exact String.toList_inj.1 this

/-- Following a reference that is neither too deep nor on a cycle. -/
theorem canGen_ref {doc path : String} {t : Gen} {k : Nat} {v : JVal} (he : ctx.env doc path = some t)
    (hlen : (stk.length : Int) ≤ ctx.o.maximumReferenceDepth)
    (hcyc : refKey doc path ∉ stk ∨ ctx.o.bypassCyclicReferenceCheck = true)
    (h : CanGen (refKey doc path :: stk) ctx t k v) : CanGen stk ctx (.ref doc path) (1 + k) v := by
  refine .step (Can.tick.bind (f := fun w n _ => Chaff.cutoff { ctx with w := w } >>= fun b => if b = true then
      (do note .cutoff; pure .null) else
      match ctx.env doc path with
      | none => do
        note .unresolvable
        pure (.str s!"Unresolvable reference: document '{doc}' with path '{path}'")
      | some target => refEnter { ctx with w := w } (subGen ctx w n) doc path target) ?_)
  have := Can.cutoff.bind (c := ctx) (stk := stk) (f := fun w n b => if b = true then
      (do note .cutoff; pure .null : M JVal) else
      match ctx.env doc path with
      | none => do
        note .unresolvable
        pure (.str s!"Unresolvable reference: document '{doc}' with path '{path}'")
      | some target => refEnter { ctx with w := w } (subGen ctx w n) doc path target) (b := v) (l := k) ?_
  · rw [Nat.zero_add] at this
    exact this
  · obtain ⟨N, ds, as, h⟩ := h
    refine ⟨N, ds, as, fun w n s hn hw hd ha hr hx => ?_⟩
    obtain ⟨s', e, p, q, x, r, dd⟩ := h w n { s with refs := refKey doc path :: s.refs } hn hw hd ha hr (by rw [hx])
    refine ⟨{ s' with refs := s.refs }, ?_, p, q, x, rfl, dd⟩
    simp only [he, Bool.false_eq_true, if_false]
    unfold refEnter
    rw [if_neg (by rw [hx]; unfold goLen; simpa using hlen), if_neg (by
      rw [hx]
      rintro ⟨h1, h2⟩
      rcases hcyc with h | h
      · exact h h1
      · rw [h] at h2; cases h2)]
    refine bind_ok.2 ⟨(), _, rfl, bind_ok.2 ⟨v, s', e, bind_ok.2 ⟨(), { s' with refs := s.refs }, ?_, rfl⟩⟩⟩
    unfold popRef
    rw [r]

theorem small {v : JVal} {g : Gen} {row : Nat} (hj : j ≤ row) (h : CanGen stk ctx g 1 v) : CanSame stk ctx (row + 1) j g v := by
  refine ⟨v, .refl v, Can.mono h ?_⟩
  have h1 := v.steps_pos
  have h2 : 1 * (row + 1) ≤ v.steps * (row + 1) := Nat.mul_le_mul_right _ h1
  omega

/-- A value that passes the test of `oneOf` is kept. -/
theorem canGen_oneOf {g : Gen} {fs : List (JVal → Bool)} {k : Nat} {v : JVal} (h : CanGen stk ctx g k v)
    (hf : oneOfPassed fs v = true) : CanGen stk ctx (.constrained g [.oneOf fs]) (k + 2) v := by
  have htest : Can stk ctx (fun w n => applyConstr { ctx with w := w } (subGen ctx w n) g (.oneOf fs) v) 1 v := by
    refine ⟨0, [], [], fun w n s _ hw _ _ hr _ => ⟨{ s with complexity := s.complexity + 1 }, ?_, rfl, rfl, by simp, rfl, rfl⟩⟩
    have hb : 0 < scaledRetryBudget w.fp ctx.o s.complexity ctx.o.maximumOneOfAttempts := by
      unfold scaledRetryBudget
      rw [(hr s.complexity (by simp)).2]
      split
      · exact Int.one_pos
      · simp only [Bool.not_false, if_true]
        omega
    generalize hm : scaledRetryBudget w.fp ctx.o s.complexity ctx.o.maximumOneOfAttempts = m at hb
    obtain ⟨a, ha⟩ : ∃ a, m.toNat = a + 1 := ⟨m.toNat - 1, by omega⟩
    unfold applyConstr
    refine bind_ok.2 ⟨m, s, by unfold budget; rw [← hm], ?_⟩
    rw [ha]
    refine bind_ok.2 ⟨some v, { s with complexity := s.complexity + 1 }, ?_, rfl⟩
    unfold oneOfLoop
    refine bind_ok.2 ⟨(), _, rfl, ?_⟩
    rw [if_pos hf]
    rfl
  have hall : Can stk ctx (fun w n => applyAll { ctx with w := w } (subGen ctx w n) g [.oneOf fs] v) 2 v := by
    have := Can.tick.bind (stk := stk) (c := ctx) (f := fun w n _ => applyConstr { ctx with w := w } (subGen ctx w n) g (.oneOf fs) v >>= fun v' =>
      applyAll { ctx with w := w } (subGen ctx w n) g [] v') (htest.bind (f := fun w n v' =>
      applyAll { ctx with w := w } (subGen ctx w n) g [] v') (l := 0) (b := v) (Can.pure v))
    exact this
  refine .step ?_
  have := Can.bind h (f := fun w n v => Chaff.cutoff { ctx with w := w } >>= fun b => if b = true then (do note .cutoff; pure v) else
    applyAll { ctx with w := w } (subGen ctx w n) g [.oneOf fs] v) (l := 0 + 2) (b := v)
    (Can.cutoff.bind (f := fun w n b => if b = true then (do note .cutoff; pure v : M JVal) else
    applyAll { ctx with w := w } (subGen ctx w n) g [.oneOf fs] v) hall)
  exact this

/-- A value that passes the tests of a negation is kept. -/
theorem canGen_excluded {g : Gen} {fs : List (JVal → Bool)} {k : Nat} {v : JVal} (h : CanGen stk ctx g k v)
    (hf : ∀ f ∈ fs, f v = true) : CanGen stk ctx (.constrained g [.multi fs]) (k + 1) v := by
  have htest : Can stk ctx (fun w n => applyConstr { ctx with w := w } (subGen ctx w n) g (.multi fs) v) 0 v := by
    refine ⟨0, [], [], fun w n s _ hw _ _ hr _ => ⟨s, ?_, rfl, rfl, by simp, rfl, rfl⟩⟩
    have hb : 0 < scaledRetryBudget w.fp ctx.o s.complexity ctx.o.maximumUniqueGeneratorAttempts := by
      unfold scaledRetryBudget
      rw [(hr s.complexity (by simp)).2]
      split
      · exact Int.one_pos
      · simp only [Bool.not_false, if_true]
        omega
    generalize hm : scaledRetryBudget w.fp ctx.o s.complexity ctx.o.maximumUniqueGeneratorAttempts = m at hb
    obtain ⟨a, ha⟩ : ∃ a, m.toNat = a + 1 := ⟨m.toNat - 1, by omega⟩
    unfold applyConstr
    refine bind_ok.2 ⟨m, s, by unfold budget; rw [← hm], ?_⟩
    rw [ha]
    refine bind_ok.2 ⟨some v, s, ?_, rfl⟩
    unfold multiLoop
    rw [if_pos (show multiPassed fs v = true from List.all_eq_true.2 hf)]
    rfl
  have hall : Can stk ctx (fun w n => applyAll { ctx with w := w } (subGen ctx w n) g [.multi fs] v) 1 v := by
    have := Can.tick.bind (stk := stk) (c := ctx) (f := fun w n _ => applyConstr { ctx with w := w } (subGen ctx w n) g (.multi fs) v >>= fun v' =>
      applyAll { ctx with w := w } (subGen ctx w n) g [] v') (htest.bind (f := fun w n v' =>
      applyAll { ctx with w := w } (subGen ctx w n) g [] v') (l := 0) (b := v) (Can.pure v))
    exact this
  refine .step ?_
  have := Can.bind h (f := fun w n v => Chaff.cutoff { ctx with w := w } >>= fun b => if b = true then (do note .cutoff; pure v) else
    applyAll { ctx with w := w } (subGen ctx w n) g [.multi fs] v) (l := 0 + 1) (b := v)
    (Can.cutoff.bind (f := fun w n b => if b = true then (do note .cutoff; pure v : M JVal) else
    applyAll { ctx with w := w } (subGen ctx w n) g [.multi fs] v) hall)
  exact this

/-- The value passes the test if it is valid for one alternative and for no other one. -/
theorem oneOf_passes {l : List SchemaNode} {fs : List (JVal → Bool)} (hfs : List.Forall₂ (Decides c root) l fs) {i : Nat}
    {x : SchemaNode} {v : JVal} (hx : l[i]? = some x) (hv : Valid (patternMeaning c) root x v)
    (hother : ∀ j y, l[j]? = some y → j ≠ i → Invalid (patternMeaning c) root y v) : fs.countP (fun f => f v) = 1 := by
  have none : ∀ {l : List SchemaNode} {fs : List (JVal → Bool)}, List.Forall₂ (Decides c root) l fs →
      (∀ (j : Nat) y, l[j]? = some y → Invalid (patternMeaning c) root y v) → fs.countP (fun f => f v) = 0 := by
    intro l fs h
    induction h with
    | nil => intro _; rfl
    | @cons y f l fs h1 _ ih =>
      intro h
      have hf : f v = false := by
        cases hf : f v with
        | false => rfl
        | true => exact (((h1 v).1 hf).not_invalid (h 0 y rfl)).elim
      rw [List.countP_cons, ih fun j y hy => h (j + 1) y hy]
      simp [hf]
  induction hfs generalizing i with
  | nil => cases hx
  | @cons y f l fs h1 h2 ih =>
    rw [List.countP_cons]
    cases i with
    | zero =>
      cases hx
      have hf : f v = true := by
        cases hf : f v with
        | true => rfl
        | false => exact (hv.not_invalid ((h1 v).2 hf)).elim
      rw [none h2 fun j y hy => hother (j + 1) y hy (by omega)]
      simp [hf]
    | succ i =>
      have hf : f v = false := by
        cases hf : f v with
        | false => rfl
        | true => exact (((h1 v).1 hf).not_invalid (hother 0 y rfl (by omega))).elim
      rw [ih hx fun j y hy hj => hother (j + 1) y hy (by omega)]
      simp [hf]

/-- Every attainable value can be produced. -/
theorem attainable_can (hfp : ctx.w.fp = c.fp) (hreg : Region c ctx.o root R) {n : SchemaNode} {v : JVal}
    {row : Nat} {fol : List String} {j : Nat} (h : Attainable c root ctx.w ctx.o row fol j n v)
    (henv : ∀ r t, Defined root r t → ∃ k d ts g, ctx.env pid r = some g ∧ R d ts t ∧ CompiledK c root R pid k t g) :
    j ≤ row → ∀ k d ts g, R d ts n → CompiledK c root R pid k n g →
      CanSame (fol.map (refKey pid)) ctx (row + 1) j g v := by
  induction h with
  | listed n l x ha hl hx hu =>
    intro hj k d ts g hR hC
    cases k with
    | zero => exact hC.elim
    | succ k =>
      have hC : CNode c root R pid (CompiledK c root R pid k) n g := hC
      have hkeep : ∀ f, Checker c f → x ∈ l.filter f := fun f ⟨res, key, hf⟩ =>
        List.mem_filter.2 ⟨hx, hu res key f hf⟩
      cases hC with
      | allOf d ts m g h0 => exact (h0 ha.allOf).elim
      | alternatives l gs h0 => rw [ha.anyOf] at h0; cases h0
      | alternative d ts m g h0 => exact h0.elim (fun ⟨x, h, _⟩ => by rw [ha.anyOf] at h; cases h) fun ⟨x, h, _⟩ => by rw [ha.oneOf] at h; cases h
      | oneOf l gs fs h0 => rw [ha.oneOf] at h0; cases h0
      | conditional x g ic h0 => rw [ha.ifN] at h0; cases h0
      | excluded d ts m g fs h0 => exact (h0 ha.not).elim
      | plain g _ h =>
        cases h with
        | ref r hr => rw [ha.ref] at hr; cases hr
        | enumOne l' y f hl' hf he =>
          rw [hl] at hl'
          cases hl'
          have := hkeep f hf
          rw [he, List.mem_singleton] at this
          subst this
          exact small hj (Can.mono (canGen_const _) (by omega))
        | enum l' f hl' hf =>
          rw [hl] at hl'
          cases hl'
          exact small hj (canGen_enum (hkeep f hf))
        | const y hn => rw [hl] at hn; cases hn
        | typed t g _ hn => rw [hl] at hn; cases hn
        | types ts gs _ hn => rw [hl] at hn; cases hn
  | const n x ha hn hx =>
    intro hj k d ts g hR hC
    cases k with
    | zero => exact hC.elim
    | succ k =>
      have hC : CNode c root R pid (CompiledK c root R pid k) n g := hC
      cases hC with
      | allOf d ts m g h0 => exact (h0 ha.allOf).elim
      | alternatives l gs h0 => rw [ha.anyOf] at h0; cases h0
      | alternative d ts m g h0 => exact h0.elim (fun ⟨x, h, _⟩ => by rw [ha.anyOf] at h; cases h) fun ⟨x, h, _⟩ => by rw [ha.oneOf] at h; cases h
      | oneOf l gs fs h0 => rw [ha.oneOf] at h0; cases h0
      | conditional x g ic h0 => rw [ha.ifN] at h0; cases h0
      | excluded d ts m g fs h0 => exact (h0 ha.not).elim
      | plain g _ h =>
        cases h with
        | ref r hr => rw [ha.ref] at hr; cases hr
        | enumOne l' y f hl' => rw [hn] at hl'; cases hl'
        | enum l' f hl' => rw [hn] at hl'; cases hl'
        | const y _ hy =>
          rw [hx] at hy
          cases hy
          exact small hj (Can.mono (canGen_const _) (by omega))
        | typed t g _ _ hc => rw [hx] at hc; cases hc
        | types ts gs _ _ hc => rw [hx] at hc; cases hc
  | null n ha =>
    intro hj k d ts g hR hC
    cases k with
    | zero => exact hC.elim
    | succ k =>
      obtain ⟨g', hg', hup⟩ := allows_type (ctx := ctx) ha hC
      generalize ht : "null" = t at hg'
      cases hg' with
      | null => exact small hj (hup _ _ canGen_null)
      | _ => simp at ht
  | boolean n b ha =>
    intro hj k d ts g hR hC
    cases k with
    | zero => exact hC.elim
    | succ k =>
      obtain ⟨g', hg', hup⟩ := allows_type (ctx := ctx) ha hC
      generalize ht : "boolean" = t at hg'
      cases hg' with
      | boolean => exact small hj (hup _ _ (Can.mono (canGen_bool b) (by omega)))
      | _ => simp at ht
  | integer n z ha hz =>
    intro hj k d ts g hR hC
    cases k with
    | zero => exact hC.elim
    | succ k =>
      have hs := hreg.supported hR ha.alone.undivided
      obtain ⟨g', hg', hup⟩ := allows_type (ctx := ctx) ha hC
      generalize ht : "integer" = t at hg'
      cases hg' with
      | integer r h =>
        rw [← hfp] at h
        refine small hj (hup _ _ (canGen_parsedInteger ?_ ?_ hz h))
        · rw [hfp]
          rcases hs.number.arithmetic with h | h
          · rw [h]; exact FP.exact_lawful
          · rw [h]; exact FP.binary64_lawful
        · rw [hfp]
          rcases hs.number.arithmetic with h | h
          · rw [h]; exact eighths_exact
          · rw [h]; exact eighths_double
      | _ => simp at ht
  | string n i ha h1 h2 h3 h4 =>
    intro hj k d ts g hR hC
    cases k with
    | zero => exact hC.elim
    | succ k =>
      obtain ⟨g', hg', hup⟩ := allows_type (ctx := ctx) ha hC
      generalize ht : "string" = t at hg'
      cases hg' with
      | string rx hchk hrx =>
        refine small hj (hup _ _ (canGen_sentence _ ?_ ?_ ?_ ?_ i))
        · show getZeroIfNil n.format "" = ""; rw [h1]; rfl
        · show getZeroIfNil n.pattern "" = ""; rw [h2]; rfl
        · show getZeroIfNil n.minLength 0 = 0; rw [h3]; rfl
        · show getZeroIfNil n.maxLength 0 = 0; rw [h4]; rfl
      | _ => simp at ht
  | number n q ha hz =>
    intro hj k d ts g hR hC
    cases k with
    | zero => exact hC.elim
    | succ k =>
      have hs := hreg.supported hR ha.alone.undivided
      obtain ⟨g', hg', hup⟩ := allows_type (ctx := ctx) ha hC
      generalize ht : "number" = t at hg'
      cases hg' with
      | number r h =>
        rw [← hfp] at h hz
        refine small hj (hup _ _ (canGen_parsedNumber ?_ hz h))
        rw [hfp]
        rcases hs.number.arithmetic with h | h
        · rw [h]; exact FP.exact_lawful
        · rw [h]; exact FP.binary64_lawful
      | _ => simp at ht
  | wholeMultiple n z ha hz hl =>
    intro hj k d ts g hR hC
    cases k with
    | zero => exact hC.elim
    | succ k =>
      have hs := hreg.supported hR ha.alone.undivided
      obtain ⟨g', hg', hup⟩ := allows_type (ctx := ctx) ha hC
      generalize ht : "number" = t at hg'
      cases hg' with
      | number r h =>
        rw [← hfp] at h
        refine small hj (hup _ _ (canGen_parsedWholeMultiple ?_ hz hl h))
        rw [hfp]
        exact hs.number.arithmetic
      | _ => simp at ht
  | multiple n z ha hz =>
    intro hj k d ts g hR hC
    cases k with
    | zero => exact hC.elim
    | succ k =>
      have hs := hreg.supported hR ha.alone.undivided
      obtain ⟨g', hg', hup⟩ := allows_type (ctx := ctx) ha hC
      generalize ht : "integer" = t at hg'
      cases hg' with
      | integer r h =>
        rw [← hfp] at h
        refine small hj (hup _ _ (canGen_parsedMultiple ?_ hz h))
        rw [hfp]
        rcases hs.number.arithmetic with h | h
        · rw [h]; exact FP.exact_lawful
        · rw [h]; exact FP.binary64_lawful
      | _ => simp at ht
  | sized n i is text ha h1 h2 h3 h4 h5 h6 h7 h8 =>
    intro hj k d ts g hR hC
    cases k with
    | zero => exact hC.elim
    | succ k =>
      obtain ⟨g', hg', hup⟩ := allows_type (ctx := ctx) ha hC
      generalize ht : "string" = t at hg'
      cases hg' with
      | string rx hchk hrx =>
        have hmin : (buildString n rx).minLength = n.minLength.getD 0 := getZero_getD _ _
        have hmax : (buildString n rx).maxLength = n.maxLength.getD 0 := getZero_getD _ _
        have hpos : 0 ≤ (buildString n rx).maxLength := by
          unfold checkString at hchk
          simp only at hchk
          by_contra hneg
          rw [if_neg (by simp [h2]), if_pos (.inl (by rw [show getZeroIfNil n.maxLength 0 = (buildString n rx).maxLength from rfl]; omega))] at hchk
          cases hchk
        have := fun stk => canGen_sized (stk := stk) (c := ctx) (buildString n rx) (by show getZeroIfNil n.format "" = ""; rw [h1]; rfl)
          (by show getZeroIfNil n.pattern "" = ""; rw [h2]; rfl) i is h4 (by rw [hmin]; exact h5) (by rw [hmin]; exact h6) hpos
        refine small hj (hup _ _ ?_)
        cases hm : n.maxLength with
        | none =>
          simp only [hmax, hm, Option.getD_none, if_true] at this
          rw [h8 hm]
          exact this _
        | some x =>
          simp only [hmax, hm, Option.getD_some, if_neg (fun e : x = 0 => h3 (by rw [hm, e]))] at this
          rw [h7 x hm]
          exact this _
      | _ => simp at ht
  | faker n f i ha h1 h2 =>
    intro hj k d ts g hR hC
    cases k with
    | zero => exact hC.elim
    | succ k =>
      obtain ⟨g', hg', hup⟩ := allows_type (ctx := ctx) ha hC
      generalize ht : "string" = t at hg'
      cases hg' with
      | string rx hchk hrx =>
        have hf : (buildString n rx).format = f := by show getZeroIfNil n.format "" = f; rw [h1]; rfl
        refine small hj (hup _ _ ?_)
        have h3 : f ∈ fakerFormats := by
          unfold fakerFormats
          simp only [List.mem_cons, List.not_mem_nil, or_false] at h2 ⊢
          tauto
        have := fun stk => canGen_faker (stk := stk) (c := ctx) (buildString n rx) (by rw [hf]; exact h3)
          (by rw [hf]; rintro rfl; exact absurd h3 (by decide)) i
        rw [hf] at this
        exact this _
      | _ => simp at ht
  | duration n days ha h1 h2 =>
    intro hj k d ts g hR hC
    cases k with
    | zero => exact hC.elim
    | succ k =>
      obtain ⟨g', hg', hup⟩ := allows_type (ctx := ctx) ha hC
      generalize ht : "string" = t at hg'
      cases hg' with
      | string rx hchk hrx =>
        exact small hj (hup _ _ (canGen_duration _ (by show getZeroIfNil n.format "" = "duration"; rw [h1]; rfl) days h2))
      | _ => simp at ht
  | pattern n p r t ha h1 h2 h3 h4 h5 h6 h7 =>
    intro hj k d ts g hR hC
    cases k with
    | zero => exact hC.elim
    | succ k =>
      obtain ⟨g', hg', hup⟩ := allows_type (ctx := ctx) ha hC
      generalize ht : "string" = t at hg'
      cases hg' with
      | string rx hchk hrx =>
        obtain ⟨x, hx, rfl⟩ := hrx p h2
        refine small hj (hup _ _ (canGen_pattern _ x ?_ ?_ rfl (can_regex h4 h5 h6 h7 hx)))
        · show getZeroIfNil n.format "" = ""; rw [h1]; rfl
        · show getZeroIfNil n.pattern "" ≠ ""; rw [h2]; exact h3
      | _ => simp at ht
  | array n l ha h1 h2 h3 h4 h5 h6 h7 h8 ih7 ih8 =>
    intro hj k d ts g hR hC
    cases k with
    | zero => exact hC.elim
    | succ k =>
      have hs := hreg.supported hR ha.alone.undivided
      obtain ⟨g', hg', hup⟩ := allows_type (ctx := ctx) ha hC
      generalize ht : "array" = t at hg'
      cases hg' with
      | array item contains tuple c1 c2 c3 c4 =>
        obtain ⟨v', e1, e2⟩ := reach_array (Nat.lt_succ_of_le hj) hs c2 c4 c3 h1 h2 h3 h4 h5 h6
          (fun p i x sub g hp hi hx hc => ih7 p i x sub hp hi hx (Nat.zero_le _) k (d + 1) _ g
            ((hreg.parts hR).prefixItems hp hi) hc)
          (fun y i x sub g hy hsub hdis hi hx hc => ih8 y i x sub hy hsub hi hx (Nat.zero_le _) k (d + 1) _ g
            ((hreg.parts hR).items hy hdis hsub) hc)
        exact ⟨v', e1, hup _ _ e2⟩
      | _ => simp at ht
  | object n m ha h2 h4 h5 h6 h7 h8 h9 ih9 =>
    intro hj k d ts g hR hC
    cases k with
    | zero => exact hC.elim
    | succ k =>
      have hs := hreg.supported hR ha.alone.undivided
      obtain ⟨g', hg', hup⟩ := allows_type (ctx := ctx) ha hC
      generalize ht : "object" = t at hg'
      cases hg' with
      | object pats props additional c1 c2 c3 c4 =>
        obtain ⟨v', e1, e2⟩ := reach_object (Nat.lt_succ_of_le hj) hs c3 h2 h4 h5 h6 h7 h8
          (fun p x y sub g hp hxy hl hc => ih9 p x y sub hp hxy hl (Nat.zero_le _) k (d + 1) _ g
            ((hreg.parts hR).properties hp hl) hc)
        exact ⟨v', e1, hup _ _ e2⟩
      | _ => simp at ht
  | @ref fol i n r t v h1 h2 h3 h4 h5 h6 h7 h8 hdef hlen hcyc hi _ ih =>
    intro hj k d ts g hR hC
    cases k with
    | zero => exact hC.elim
    | succ k =>
      have hC : CNode c root R pid (CompiledK c root R pid k) n g := hC
      cases hC with
      | allOf d ts m g h0 => exact (h0 h4).elim
      | alternatives l gs h0 => rw [h5] at h0; cases h0
      | alternative d ts m g h0 => exact h0.elim (fun ⟨x, h, _⟩ => by rw [h5] at h; cases h) fun ⟨x, h, _⟩ => by rw [h6] at h; cases h
      | oneOf l gs fs h0 => rw [h6] at h0; cases h0
      | conditional x g ic h0 => rw [h7] at h0; cases h0
      | excluded d ts m g fs h0 => exact (h0 h8).elim
      | plain g _ h =>
        cases h with
        | enumOne l' y f hl' => rw [h2] at hl'; cases hl'
        | enum l' f hl' => rw [h2] at hl'; cases hl'
        | const y _ hy => rw [h3] at hy; cases hy
        | typed t g hr => rw [h1] at hr; cases hr
        | types ts gs hr => rw [h1] at hr; cases hr
        | ref r' hr =>
          rw [h1] at hr
          cases hr
          obtain ⟨k', d', ts', g', e1, e2, e3⟩ := henv r t hdef
          obtain ⟨v', e4, e5⟩ := ih (by omega) k' d' ts' g' e2 e3
          refine ⟨v', e4, Can.mono (canGen_ref e1 (by simpa using hlen) ?_ e5) ?_⟩
          · rcases hcyc with h | h
            · left
              intro hm
              obtain ⟨r', hr', he⟩ := List.mem_map.1 hm
              rw [refKey_inj he] at hr'
              exact h hr'
            · exact .inr h
          · have h1 := v.steps_pos
            have h2 : 1 * (row + 1) ≤ v.steps * (row + 1) := Nat.mul_le_mul_right _ h1
            omega
  | @anyOf fol i n l x t v ho hl hx ht hk hi _ ih =>
    intro hj k d ts g hR hC
    have hcop := Copied.onlyAnyOf ho (by rw [hl]; intro h; rw [Option.some.inj h] at hx; cases hx)
    cases k with
    | zero => exact hC.elim
    | succ k =>
      have hC : CNode c root R pid (CompiledK c root R pid k) n g := hC
      cases hC with
      | plain g hu => rw [hu.anyOf] at hl; cases hl
      | allOf d ts m g h0 => exact (h0 hcop.allOf).elim
      | oneOf l gs fs h0 => rw [ho.covered.oneOf] at h0; cases h0
      | conditional x g ic h0 => rw [hcop.ifN] at h0; cases h0
      | excluded d ts m g fs h0 => exact (h0 hcop.not).elim
      | alternative d' ts' m _ h0 hm _ hc =>
        rcases h0 with ⟨y, h0, heq⟩ | h0
        · rw [hl] at h0
          cases h0
          cases List.mem_singleton.1 hx
          rw [heq.1 ho t ht hk] at hm hc
          obtain ⟨v', e1, e2⟩ := ih (by omega) k d' ts' g hm hc
          exact ⟨v', e1, Can.mono e2 (by omega)⟩
        · obtain ⟨y, h0, _⟩ := h0
          rw [ho.covered.oneOf] at h0
          cases h0
      | alternatives l' gs h0 hgs =>
        rw [hl] at h0
        cases h0
        obtain ⟨g', hg', d', ts', m, hm, _, hc, heq⟩ := forall₂_target hgs hx
        rw [heq.1 ho t ht hk] at hm hc
        obtain ⟨v', e1, e2⟩ := ih (by omega) k d' ts' g' hm hc
        refine ⟨v', e1, Can.mono (canGen_comb hg' e2) ?_⟩
        have h1 := v.steps_pos
        have h2 : 1 * (row + 1) ≤ v.steps * (row + 1) := Nat.mul_le_mul_right _ h1
        omega
  | @oneOf fol i n l q x v ho hl hx hk hi hval _ ih =>
    intro hj k d ts g hR hC
    have hcop := Copied.onlyOneOf ho (by rw [hl]; intro h; rw [Option.some.inj h] at hx; cases hx)
    have hany : n.anyOf = none := ho.anyOf
    have hsteps : row + 1 ≤ v.steps * (row + 1) := by
      have h2 : 1 * (row + 1) ≤ v.steps * (row + 1) := Nat.mul_le_mul_right _ v.steps_pos
      omega
    cases k with
    | zero => exact hC.elim
    | succ k =>
      have hC : CNode c root R pid (CompiledK c root R pid k) n g := hC
      cases hC with
      | plain g hu => rw [hu.oneOf] at hl; cases hl
      | allOf d ts m g h0 => exact (h0 hcop.allOf).elim
      | alternatives l gs h0 => rw [hany] at h0; cases h0
      | conditional x g ic h0 => rw [hcop.ifN] at h0; cases h0
      | excluded d ts m g fs h0 => exact (h0 hcop.not).elim
      | alternative d' ts' m _ h0 hm _ hc =>
        rcases h0 with ⟨y, h0, _⟩ | ⟨y, h0, heq⟩
        · rw [hany] at h0; cases h0
        · rw [hl] at h0
          cases h0
          cases List.mem_singleton.1 (List.mem_of_getElem? hx)
          rw [heq.1 ho hk] at hm hc
          obtain ⟨v', e1, e2⟩ := ih (by omega) k d' ts' g hm hc
          exact ⟨v', e1, Can.mono e2 (by omega)⟩
      | oneOf l' gs fs h0 hgs hfs =>
        rw [hl] at h0
        cases h0
        obtain ⟨g', hg', d', ts', m, hm, _, hc, heq⟩ := forall₂_target hgs (List.mem_of_getElem? hx)
        rw [heq.1 ho hk] at hm hc
        obtain ⟨v', e1, e2⟩ := ih (by omega) k d' ts' g' hm hc
        obtain ⟨h1, h2⟩ := hval v' e1
        refine ⟨v', e1, Can.mono (canGen_oneOf (canGen_comb hg' e2) (oneOfPassed_iff.2 (oneOf_passes hfs hx h1 h2))) ?_⟩
        omega
  | @allOf fol i n l v hl href hany hone hif hnot hown _ ih =>
    intro hj k d ts g hR hC
    cases k with
    | zero => exact hC.elim
    | succ k =>
      have hC : CNode c root R pid (CompiledK c root R pid k) n g := hC
      cases hC with
      | allOf d ts m g _ h1 _ h3 h4 =>
        obtain ⟨v', e1, e2⟩ := ih m (h4 l hl hany hown) hj k d ts g h1 h3
        exact ⟨v', e1, canGen_allOf e2⟩
      | alternatives l gs h0 => rw [hany] at h0; cases h0
      | alternative d ts m g h0 => exact h0.elim (fun ⟨x, h, _⟩ => by rw [hany] at h; cases h) fun ⟨x, h, _⟩ => by rw [hone] at h; cases h
      | oneOf l gs fs h0 => rw [hone] at h0; cases h0
      | conditional x g ic h0 => rw [hif] at h0; cases h0
      | excluded d ts m g fs h0 => exact (h0 hnot).elim
      | plain g h _ => rw [h.allOf] at hl; cases hl
  | @alternative fol i n l x v hl hx ho hk href hall hi _ ih =>
    intro hj k d ts g hR hC
    have hone : n.oneOf = none := hk.covered.oneOf
    have hsteps : row + 1 ≤ v.steps * (row + 1) := by
      have h2 : 1 * (row + 1) ≤ v.steps * (row + 1) := Nat.mul_le_mul_right _ v.steps_pos
      omega
    cases k with
    | zero => exact hC.elim
    | succ k =>
      have hC : CNode c root R pid (CompiledK c root R pid k) n g := hC
      cases hC with
      | plain g hu => rw [hu.anyOf] at hl; cases hl
      | allOf d ts m g h0 => exact (h0 hk.allOf).elim
      | oneOf l gs fs h0 => rw [hone] at h0; cases h0
      | conditional x g ic h0 => rw [show n.ifN = none from hk.covered.ifN] at h0; cases h0
      | excluded d ts m g fs h0 => exact (h0 hk.covered.not).elim
      | alternative d' ts' m _ h0 hm _ hc =>
        rcases h0 with ⟨y, h0, heq⟩ | ⟨y, h0, _⟩
        · rw [hl] at h0
          cases h0
          cases List.mem_singleton.1 hx
          obtain ⟨v', e1, e2⟩ := ih m (heq.2 ho hk href hall) (by omega) k d' ts' g hm hc
          exact ⟨v', e1, Can.mono e2 (by omega)⟩
        · rw [hone] at h0
          cases h0
      | alternatives l' gs h0 hgs =>
        rw [hl] at h0
        cases h0
        obtain ⟨g', hg', d', ts', m, hm, _, hc, heq⟩ := forall₂_target hgs hx
        obtain ⟨v', e1, e2⟩ := ih m (heq.2 ho hk href hall) (by omega) k d' ts' g' hm hc
        refine ⟨v', e1, Can.mono (canGen_comb hg' e2) ?_⟩
        omega
  | @choice fol i n l q x v hl hx ho hall hany hif hnot hxall hi hval _ ih =>
    intro hj k d ts g hR hC
    have hsteps : row + 1 ≤ v.steps * (row + 1) := by
      have h2 : 1 * (row + 1) ≤ v.steps * (row + 1) := Nat.mul_le_mul_right _ v.steps_pos
      omega
    cases k with
    | zero => exact hC.elim
    | succ k =>
      have hC : CNode c root R pid (CompiledK c root R pid k) n g := hC
      cases hC with
      | plain g hu => rw [hu.oneOf] at hl; cases hl
      | allOf d ts m g h0 => exact (h0 hall).elim
      | alternatives l gs h0 => rw [hany] at h0; cases h0
      | conditional x g ic h0 => rw [hif] at h0; cases h0
      | excluded d ts m g fs h0 => exact (h0 hnot).elim
      | alternative d' ts' m _ h0 hm _ hc =>
        rcases h0 with ⟨y, h0, _⟩ | ⟨y, h0, heq⟩
        · rw [hany] at h0; cases h0
        · rw [hl] at h0
          cases h0
          cases List.mem_singleton.1 (List.mem_of_getElem? hx)
          obtain ⟨v', e1, e2⟩ := ih m (heq.2 ho hxall) (by omega) k d' ts' g hm hc
          exact ⟨v', e1, Can.mono e2 (by omega)⟩
      | oneOf l' gs fs h0 hgs hfs =>
        rw [hl] at h0
        cases h0
        obtain ⟨g', hg', d', ts', m, hm, _, hc, heq⟩ := forall₂_target hgs (List.mem_of_getElem? hx)
        obtain ⟨v', e1, e2⟩ := ih m (heq.2 ho hxall) (by omega) k d' ts' g' hm hc
        obtain ⟨h1, h2⟩ := hval v' e1
        refine ⟨v', e1, Can.mono (canGen_oneOf (canGen_comb hg' e2) (oneOfPassed_iff.2 (oneOf_passes hfs hx h1 h2))) ?_⟩
        omega
  | @excluded fol i n x v hx hall hany hone hif hwf hspared hi _ ih =>
    intro hj k d ts g hR hC
    cases k with
    | zero => exact hC.elim
    | succ k =>
      have hC : CNode c root R pid (CompiledK c root R pid k) n g := hC
      cases hC with
      | allOf d ts m g h0 => exact (h0 hall).elim
      | alternatives l gs h0 => rw [hany] at h0; cases h0
      | alternative d ts m g h0 => exact h0.elim (fun ⟨x, h, _⟩ => by rw [hany] at h; cases h) fun ⟨x, h, _⟩ => by rw [hone] at h; cases h
      | oneOf l gs fs h0 => rw [hone] at h0; cases h0
      | conditional x g ic h0 => rw [hif] at h0; cases h0
      | plain g h _ => rw [h.not] at hx; cases hx
      | excluded d ts m g fs _ h1 _ h3 h4 =>
        obtain ⟨rfl, hpass⟩ := h4 x hx
        obtain ⟨v', e1, e2⟩ := ih (by omega) k d ts g h1 h3
        refine ⟨v', e1, Can.mono (canGen_excluded e2 (hpass v' (e1.wf.1 hwf) (hspared.same e1))) ?_⟩
        have h2 : 1 * (row + 1) ≤ v.steps * (row + 1) := Nat.mul_le_mul_right _ v.steps_pos
        omega

/-- The form in which the code keeps an alternative makes no difference. -/
theorem Attainable.asMerged {w : World} {o : Opts} {row k : Nat} {fol : List String} {n : SchemaNode} {v : JVal} (hk : KeptByMerge n)
    (h : Attainable c root w o row fol k n v) : Attainable c root w o row fol k (asMerged n) v := by
  have alone : ∀ {n : SchemaNode}, Alone n → Alone (Chaff.asMerged n) := fun h => ⟨h.1, h.2, h.3, h.4, h.5, h.6⟩
  have allows : ∀ {n : SchemaNode} {t : String}, Allows n t → Allows (Chaff.asMerged n) t := fun h => ⟨alone h.1, h.2, h.3, h.4⟩
  have hit : n.items.any (·.disallow) = false := by
    cases hd : n.items with
    | none => rfl
    | some d => exact (hk.items d hd).1
  have hit' : (Chaff.asMerged n).items.any (·.disallow) = false := by
    unfold Chaff.asMerged
    cases n.items <;> rfl
  cases h with
  | listed _ l x h1 h2 h3 h4 => exact .listed _ l v (alone h1) h2 h3 h4
  | const _ x h1 h2 h3 => exact .const _ v (alone h1) h2 h3
  | null _ h => exact .null _ (allows h)
  | boolean _ b h => exact .boolean _ b (allows h)
  | integer _ z h h' => exact .integer _ z (allows h) h'
  | number _ q h h' => exact .number _ q (allows h) h'
  | wholeMultiple _ z h h' hl => exact .wholeMultiple _ z (allows h) h' hl
  | multiple _ z h h' => exact .multiple _ z (allows h) h'
  | string _ i h h1 h2 h3 h4 => exact .string _ i (allows h) h1 h2 h3 h4
  | sized _ i is text h h1 h2 h3 h4 h5 h6 h7 h8 => exact .sized _ i is text (allows h) h1 h2 h3 h4 h5 h6 h7 h8
  | faker _ f i h h1 h2 => exact .faker _ f i (allows h) h1 h2
  | duration _ days h h1 h2 => exact .duration _ days (allows h) h1 h2
  | pattern _ p r text h h1 h2 h3 h4 h5 h6 h7 => exact .pattern _ p r text (allows h) h1 h2 h3 h4 h5 h6 h7
  | array _ l h h1 h2 h3 h4 h5 h6 h7 h8 =>
    refine .array _ l (allows h) h1 h2 (fun _ => h3 hit) (by rw [hit']; nofun) ?_ h6 h7 ?_
    · intro i x hi hx
      obtain ⟨d, sub, hd, hs⟩ := h5 i x hi hx
      exact ⟨_, sub, items_asMerged' hd, hs⟩
    · intro d i x sub hd hs hi hx
      obtain ⟨d', hd', rfl⟩ := items_asMerged hd
      exact h8 d' i x sub hd' hs hi hx
  | object _ m h h1 h2 h3 h4 h5 h6 h7 => exact .object _ m (allows h) h1 h2 h3 h4 h5 h6 h7
  | ref _ r t _ h1 => rw [hk.ref] at h1; cases h1
  | anyOf _ l x _ _ _ h1 => rw [hk.anyOf] at h1; cases h1
  | oneOf _ l i x _ _ h1 => rw [hk.covered.oneOf] at h1; cases h1
  | allOf _ l _ h1 => rw [hk.allOf] at h1; cases h1
  | alternative _ l x _ h1 => rw [hk.anyOf] at h1; cases h1
  | choice _ l i x _ h1 => rw [hk.covered.oneOf] at h1; cases h1
  | excluded _ x _ h1 => rw [hk.covered.not] at h1; cases h1

end Chaff
