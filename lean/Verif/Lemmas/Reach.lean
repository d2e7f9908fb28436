import Mathlib.Data.List.Perm.Basic
import Verif.Spec.Reach
import Verif.Lemmas.Compiled
/-!
# Runs that can be forced by choosing the random numbers

`Can stk ctx m cost a`: there are random numbers such that `m`, started in any state whose streams deliver them next,
yields `a`, whatever the streams deliver later.
-/

namespace Chaff
open Comp

/-- The stream delivers these numbers from position `p` on. -/
def Feeds (f : Nat → Nat) (p : Nat) (ds : List Nat) : Prop := ∀ i x, ds[i]? = some x → f (p + i) = x

theorem Feeds.left {f : Nat → Nat} {p : Nat} {a b : List Nat} (h : Feeds f p (a ++ b)) : Feeds f p a := by
  intro i x hx
  refine h i x ?_
  rw [List.getElem?_append_left ((List.getElem?_eq_some_iff.1 hx).1)]
  exact hx

theorem Feeds.right {f : Nat → Nat} {p : Nat} {a b : List Nat} (h : Feeds f p (a ++ b)) : Feeds f (p + a.length) b := by
  intro i x hx
  rw [Nat.add_assoc]
  refine h _ x ?_
  rw [List.getElem?_append_right (Nat.le_add_right _ _), Nat.add_sub_cancel_left]
  exact hx

/-- Two worlds that differ in the random streams only. -/
structure Alike (w w' : World) : Prop where
  sentence : w'.sentence = w.sentence
  fakerFormat : w'.fakerFormat = w.fakerFormat
  fp : w'.fp = w.fp
  plat : w'.plat = w.plat

/-- Generation is neither cut off nor minimized up to this complexity. -/
def Room (o : Opts) (k : Int) : Prop := ∀ i ≤ k, shouldCutoff o i = false ∧ shouldMinimize o i = false

theorem Room.mono {o : Opts} {a b : Int} (h : Room o b) (hab : a ≤ b) : Room o a := fun i hi => h i (hi.trans hab)

/-- A run that can be forced while the references `stk` are being followed. -/
def Can {α : Type} (stk : List String) (c : Ctx) (m : World → Nat → M α) (cost : Nat) (a : α) : Prop :=
  ∃ (N : Nat) (ds as : List Nat), ∀ (w : World) (n : Nat) (s : GSt), N ≤ n → Alike c.w w → Feeds w.seeded s.spos ds →
    Feeds w.ambient s.apos as → Room c.o (s.complexity + cost) → s.refs = stk → ∃ s', m w n s = .ok a s' ∧
      s'.spos = s.spos + ds.length ∧ s'.apos = s.apos + as.length ∧ s'.complexity ≤ s.complexity + cost ∧
      s'.refs = s.refs ∧ s'.diags = s.diags

variable {α β : Type} {c : Ctx} {stk : List String}

theorem Can.pure (a : α) : Can stk c (fun _ _ => (Pure.pure a : M α)) 0 a :=
  ⟨0, [], [], fun _ _ s _ _ _ _ _ _ => ⟨s, rfl, rfl, rfl, by simp, rfl, rfl⟩⟩

theorem Can.bind {m : World → Nat → M α} {f : World → Nat → α → M β} {k l : Nat} {a : α} {b : β} (hm : Can stk c m k a)
    (hf : Can stk c (fun w n => f w n a) l b) : Can stk c (fun w n => m w n >>= f w n) (k + l) b := by
  obtain ⟨N, ds, as, hm⟩ := hm
  obtain ⟨N', ds', as', hf⟩ := hf
  refine ⟨max N N', ds ++ ds', as ++ as', ?_⟩
  intro w n s hn hw hd ha hr hx
  obtain ⟨s1, e1, p1, q1, c1, r1, d1⟩ := hm w n s (le_trans (le_max_left _ _) hn) hw hd.left ha.left
    (hr.mono (by push_cast; omega)) hx
  obtain ⟨s2, e2, p2, q2, c2, r2, d2⟩ := hf w n s1 (le_trans (le_max_right _ _) hn) hw (by rw [p1]; exact hd.right)
    (by rw [q1]; exact ha.right) (hr.mono (by push_cast; omega)) (r1.trans hx)
  exact ⟨s2, bind_ok.2 ⟨a, s1, e1, e2⟩, by rw [p2, p1, List.length_append, Nat.add_assoc],
    by rw [q2, q1, List.length_append, Nat.add_assoc], by push_cast; omega, r2.trans r1, d2.trans d1⟩

theorem Can.mono {m : World → Nat → M α} {k l : Nat} {a : α} (h : Can stk c m k a) (hkl : k ≤ l) : Can stk c m l a := by
  obtain ⟨N, ds, as, h⟩ := h
  refine ⟨N, ds, as, fun w n s hn hw hd ha hr hx => ?_⟩
  obtain ⟨s', e, p, q, x, r, d⟩ := h w n s hn hw hd ha (hr.mono (by push_cast; omega)) hx
  exact ⟨s', e, p, q, by push_cast at x ⊢; omega, r, d⟩

/-- Only worlds that are alike matter, and only with enough fuel. -/
theorem Can.congr {m m' : World → Nat → M α} {k : Nat} {a : α} (N : Nat) (h : Can stk c m k a)
    (e : ∀ w n s, N ≤ n → Alike c.w w → m' w n s = m w n s) : Can stk c m' k a := by
  obtain ⟨N', ds, as, h⟩ := h
  refine ⟨max N N', ds, as, fun w n s hn hw hd ha hr hx => ?_⟩
  rw [e w n s (le_trans (le_max_left _ _) hn) hw]
  exact h w n s (le_trans (le_max_right _ _) hn) hw hd ha hr hx

theorem Can.tick : Can stk c (fun _ _ => Chaff.tick) 1 () :=
  ⟨0, [], [], fun _ _ s _ _ _ _ _ _ => ⟨_, rfl, rfl, rfl, by simp, rfl, rfl⟩⟩

theorem Can.cutoff : Can stk c (fun w _ => Chaff.cutoff { c with w := w }) 0 false :=
  ⟨0, [], [], fun _ _ s _ _ _ _ hr _ => ⟨s, by
    show Res.ok (shouldCutoff c.o s.complexity) s = _
    rw [(hr s.complexity (by simp)).1], rfl, rfl, by simp, rfl, rfl⟩⟩

theorem Can.minimize : Can stk c (fun w _ => Chaff.minimize { c with w := w }) 0 false :=
  ⟨0, [], [], fun _ _ s _ _ _ _ hr _ => ⟨s, by
    show Res.ok (shouldMinimize c.o s.complexity) s = _
    rw [(hr s.complexity (by simp)).2], rfl, rfl, by simp, rfl, rfl⟩⟩

theorem Can.seeded (x : Nat) : Can stk c (fun w _ => drawSeeded w) 0 x :=
  ⟨0, [x], [], fun w _ s _ _ hd _ _ _ => ⟨{ s with spos := s.spos + 1 }, by
    show Res.ok (w.seeded s.spos) _ = _
    have := hd 0 x rfl
    rw [Nat.add_zero] at this
    rw [this], rfl, rfl, by simp, rfl, rfl⟩⟩

theorem Can.ambient (x : Nat) : Can stk c (fun w _ => drawAmbient w) 0 x :=
  ⟨0, [], [x], fun w _ s _ _ _ ha _ _ => ⟨{ s with apos := s.apos + 1 }, by
    show Res.ok (w.ambient s.apos) _ = _
    have := ha 0 x rfl
    rw [Nat.add_zero] at this
    rw [this], rfl, rfl, by simp, rfl, rfl⟩⟩

theorem Can.intnWith {draw : World → M Nat} (hd : ∀ x, Can stk c (fun w _ => draw w) 0 x) {n k : Int} (h0 : 0 ≤ k)
    (h1 : k < n) : Can stk c (fun w _ => Chaff.intnWith (draw w) n) 0 k := by
  have h := Can.bind (hd k.toNat) (f := fun _ _ (x : Nat) => (Pure.pure ((x : Int) % n) : M Int))
    (Can.pure ((k.toNat : Int) % n))
  have e : ((k.toNat : Int) % n) = k := by
    rw [Int.toNat_of_nonneg h0]
    exact Int.emod_eq_of_lt h0 h1
  rw [e] at h
  refine h.congr 0 fun w _ s _ _ => ?_
  unfold Chaff.intnWith
  rw [if_neg (by omega)]

theorem Can.randomInt {a b z : Int} (h : z = a ∧ a = b ∨ a ≤ z ∧ z < b) : Can stk c (fun w _ => Chaff.randomInt w a b) 0 z := by
  by_cases hab : a = b
  · have : z = a := by omega
    subst this
    refine (Can.pure z).congr 0 fun w _ s _ _ => ?_
    unfold Chaff.randomInt
    rw [if_pos hab]
  · have hz : a ≤ z ∧ z < b := by omega
    have h := Can.bind (Can.intnWith (c := c) (stk := stk) Can.seeded (n := b - a) (k := z - a) (by omega) (by omega))
      (f := fun _ _ k => (Pure.pure (k + a) : M Int)) (Can.pure (z - a + a))
    rw [show z - a + a = z by omega] at h
    refine h.congr 0 fun w _ s _ _ => ?_
    unfold Chaff.randomInt
    rw [if_neg hab]
    rfl

theorem Can.indexAt {l : List α} {i : Nat} {a : α} (h : l[i]? = some a) : Can stk c (fun _ _ => Chaff.indexAt l (i : Int)) 0 a := by
  refine (Can.pure a).congr 0 fun w _ s _ _ => ?_
  unfold Chaff.indexAt
  rw [if_neg (by omega), Int.toNat_natCast, h]

theorem Can.choice {l : List α} {a : α} (h : a ∈ l) : Can stk c (fun w _ => Chaff.choice w l) 0 a := by
  obtain ⟨i, hi⟩ := List.getElem?_of_mem h
  have hlt : i < l.length := (List.getElem?_eq_some_iff.1 hi).1
  refine (Can.bind (Can.intnWith (c := c) (stk := stk) Can.seeded (n := goLen l) (k := (i : Int)) (by omega)
    (by unfold goLen; omega)) (f := fun _ _ i => Chaff.indexAt l i) (Can.indexAt hi)).congr 0 fun w _ s _ _ => rfl

theorem Can.randomBool (b : Bool) : Can stk c (fun w _ => Chaff.randomBool w) 0 b := by
  have h := Can.bind (Can.intnWith (c := c) (stk := stk) Can.seeded (n := 2) (k := if b then 1 else 0) (by split <;> omega)
    (by split <;> omega)) (f := fun _ _ k => (Pure.pure (k == 1) : M Bool)) (Can.pure _)
  cases b <;> exact h

/-- Picking one of several generators. -/
theorem Can.pick {l : List Gen} {g : Gen} {v : JVal} {k : Nat} {sub : World → Nat → Gen → M JVal} (h : g ∈ l)
    (hg : Can stk c (fun w n => sub w n g) k v) : Can stk c (fun w n => do
      let i ← Chaff.randomInt w 0 (goLen l)
      let g ← Chaff.indexAt l i
      sub w n g) k v := by
  obtain ⟨i, hi⟩ := List.getElem?_of_mem h
  have hlt : i < l.length := (List.getElem?_eq_some_iff.1 hi).1
  have := Can.bind (Can.randomInt (c := c) (stk := stk) (a := 0) (b := goLen l) (z := (i : Int)) (.inr ⟨by omega, by unfold goLen; omega⟩))
    (f := fun w n i => Chaff.indexAt l i >>= sub w n) (Can.bind (Can.indexAt hi) (f := sub) hg)
  rw [Nat.zero_add, Nat.zero_add] at this
  exact this

/-! ## Shuffling -/

theorem permLoop_succ (draw : M Nat) (n : Nat) (m : List Nat) :
    permLoop draw (n + 1) m = permLoop draw n m >>= permLoop draw 1 := by
  induction n generalizing m with
  | zero => rfl
  | succ n ih =>
    conv_lhs => rw [permLoop]
    conv_rhs => rw [permLoop]
    funext s
    simp only [bind_apply]
    cases h : Chaff.intnWith draw (goLen m + 1) s with
    | panic e => rfl
    | oom => rfl
    | ok j s1 =>
      simp only
      rw [ih]
      rfl

theorem Can.permLoop {draw : World → M Nat} (hd : ∀ x, Can stk c (fun w _ => draw w) 0 x) (n : Nat) : ∀ q : List Nat,
    q.Perm (List.range n) → Can stk c (fun w _ => Chaff.permLoop (draw w) n []) 0 q := by
  induction n with
  | zero =>
    intro q hq
    have : q = [] := by simpa using hq
    subst this
    exact Can.pure []
  | succ n ih =>
    intro q hq
    have hlen : q.length = n + 1 := by simpa using hq.length_eq
    have hnd : q.Nodup := hq.nodup_iff.2 List.nodup_range
    have hmem : n ∈ q := hq.mem_iff.2 (by simp)
    obtain ⟨j, hj⟩ := List.getElem?_of_mem hmem
    obtain ⟨hjl, hje⟩ := List.getElem?_eq_some_iff.1 hj
    have hne : q ≠ [] := by intro h; rw [h] at hlen; simp at hlen
    have hsplit := List.dropLast_append_getLast hne
    -- the list before the last step
    have key : ∃ m : List Nat, m.Perm (List.range n) ∧ m.length = n ∧
        (match m[j]? with | some x => m.set j m.length ++ [x] | none => m ++ [m.length]) = q ∧ j < n + 1 := by
      have hdl : q.dropLast.length = n := by simp [hlen]
      by_cases hjn : j = n
      · subst hjn
        have hlast : q.getLast hne = j := by
          rw [List.getLast_eq_getElem]
          simpa [hlen] using hje
        refine ⟨q.dropLast, ?_, hdl, ?_, by omega⟩
        · rw [List.range_succ, ← hsplit, hlast] at hq
          exact (List.perm_append_right_iff _).1 hq
        · rw [List.getElem?_eq_none (by omega)]
          simp only [hdl]
          conv_rhs => rw [← hsplit, hlast]
      · have hjlt : j < n := by omega
        have hdj : q.dropLast[j]? = some n := by
          rw [← hsplit, List.getElem?_append_left (by omega)] at hj
          exact hj
        refine ⟨q.dropLast.set j (q.getLast hne), ?_, by simp [hlen], ?_, by omega⟩
        · have h1 := set_append_perm (y := q.getLast hne) hdj
          have h2 : (q.dropLast.set j (q.getLast hne) ++ [n]).Perm (List.range n ++ [n]) := by
            rw [← List.range_succ]
            refine h1.trans ?_
            rw [hsplit]
            exact hq
          exact (List.perm_append_right_iff _).1 h2
        · rw [List.getElem?_set_self (by omega)]
          simp only [List.length_set, List.set_set, hdl]
          have : q.dropLast.set j n = q.dropLast := by
            refine List.ext_getElem? fun i => ?_
            by_cases hi : i = j
            · subst hi
              rw [List.getElem?_set_self (by omega), hdj]
            · rw [List.getElem?_set_ne (Ne.symm hi)]
          rw [this]
          exact hsplit
    obtain ⟨m, hm, hml, hmq, hjb⟩ := key
    have h1 : Can stk c (fun w _ => Chaff.permLoop (draw w) 1 m) 0 q := by
      have h := Can.bind (Can.intnWith (c := c) (stk := stk) hd (n := goLen m + 1) (k := (j : Int)) (by omega)
        (by unfold goLen; omega)) (f := fun w _ j => Chaff.permLoop (draw w) 0 (match m[j.toNat]? with
          | some x => m.set j.toNat m.length ++ [x] | none => m ++ [m.length])) (b := q) (l := 0) (by
            simp only [Int.toNat_natCast]
            rw [hmq]
            exact Can.pure q)
      exact h
    refine (Can.bind (ih m hm) (f := fun w _ m => Chaff.permLoop (draw w) 1 m) h1).congr 0 fun w _ s _ _ => ?_
    rw [permLoop_succ]

theorem perm_indices {l t : List α} (h : l.Perm t) :
    ∃ q : List Nat, q.Perm (List.range l.length) ∧ q.filterMap (fun i => l[i]?) = t := by
  have hf : List.Forall₂ (fun i a => l[i]? = some a) (List.range l.length) l := by
    rw [List.forall₂_iff_get]
    refine ⟨by simp, fun i h1 h2 => ?_⟩
    simp
  have hc := List.forall₂_comp_perm_eq_perm_comp_forall₂ (r := fun (i : Nat) (a : α) => l[i]? = some a)
  have : Relation.Comp (List.Forall₂ (fun i a => l[i]? = some a)) List.Perm (List.range l.length) t := ⟨l, hf, h⟩
  rw [hc] at this
  obtain ⟨q, hq, hqt⟩ := this
  refine ⟨q, hq.symm, ?_⟩
  clear hf hc hq h
  induction hqt with
  | nil => rfl
  | cons h _ ih => rw [List.filterMap_cons, h]; simp only; rw [ih]

theorem Can.shuffle {l t : List α} (h : l.Perm t) : Can stk c (fun w _ => shuffleAmbient w l) 0 t := by
  obtain ⟨q, hq, ht⟩ := perm_indices h
  have := Can.bind (Can.permLoop (c := c) (stk := stk) Can.ambient l.length q hq)
    (f := fun _ _ p => (Pure.pure (p.filterMap (fun i => l[i]?)) : M (List α))) (Can.pure _)
  rw [ht] at this
  exact this

theorem Can.stringChoiceMultiple {l t : List String} (ht : ∃ r, l.Perm (t ++ r)) :
    Can stk c (fun w _ => Chaff.stringChoiceMultiple w l (goLen t)) 0 t := by
  obtain ⟨r, hr⟩ := ht
  refine (Can.bind (Can.shuffle (c := c) (stk := stk) hr) (f := fun _ _ c' => if goLen t < 0 ∨ goLen c' < goLen t then
    Comp.fail "slice bounds out of range" else (Pure.pure (c'.take (goLen t).toNat) : M (List String))) (b := t) (l := 0) ?_)
  rw [if_neg (by unfold goLen; rw [List.length_append]; omega)]
  have : (t ++ r).take (goLen t).toNat = t := by unfold goLen; simp
  rw [this]
  exact Can.pure t

end Chaff
