import Verif.Lemmas.Reach
import Verif.Spec.Drawn
import Verif.Spec.Library
import Verif.Props.Regen
/-!
# Drawing a text that matches a regular expression
-/

namespace Chaff
open Comp

variable {c : Ctx} {stk : List String}

theorem classSize_total : ∀ (rs : List Nat) (k : CharClass), ¬ InClass rs 0 → parseCharClass rs = .ok k →
    k.totalSize = classSize rs
  | [], k, _, h => by cases h; rfl
  | [_], k, _, h => by cases h; rfl
  | lo :: hi :: rest, k, hn, h => by
    obtain ⟨k', h1, h2, _, h4⟩ := parseCharClass_cons h
    rw [h4, classSize_total rest k' (fun hh => hn (.inr hh)) h1]
    have : lo ≠ 0 := fun h0 => hn (.inl (by omega))
    rw [if_neg this]
    rfl

theorem inClass_index : ∀ (rs : List Nat) (k : CharClass), ¬ InClass rs 0 → parseCharClass rs = .ok k → ∀ n, InClass rs n →
    ∃ i < k.totalSize, getRuneAt k.ranges i = some n
  | [], k, _, h, n, hi => by cases hi
  | [_], k, _, h, n, hi => by cases hi
  | lo :: hi :: rest, k, hn, h, n, hin => by
    obtain ⟨k', h1, h2, h3, h4⟩ := parseCharClass_cons h
    have hlo : lo ≠ 0 := fun h0 => hn (.inl (by omega))
    rw [if_neg hlo] at h2 h3 h4
    rcases hin with hin | hin
    · refine ⟨n - lo, by omega, ?_⟩
      rw [h3]
      simp only [getRuneAt]
      rw [if_pos (by omega)]
      congr 1
      omega
    · obtain ⟨i, hi1, hi2⟩ := inClass_index rest k' (fun hh => hn (.inr hh)) h1 n hin
      refine ⟨hi - lo + 1 + i, by omega, ?_⟩
      rw [h3]
      simp only [getRuneAt]
      rw [if_neg (by omega), show hi - lo + 1 + i - (hi - lo + 1) = i by omega, hi2]

theorem runeToChar_char (x : Char) : runeToChar x.toNat = x := by
  unfold runeToChar
  rw [if_pos (show x.toNat.isValidChar from x.valid)]
  exact Char.ofNat_toNat x

theorem can_repeatM {m : World → M (List Char)} {r : Rx}
    (hm : ∀ p t q, Matches p r t q → Can stk c (fun W _ => m W) 0 t) : ∀ (n : Nat) (p t q : List Char),
    Matches p (.concat (List.replicate n r)) t q → Can stk c (fun W _ => repeatM (m W) n) 0 t
  | 0, p, t, q, h => by cases h; exact Can.pure _
  | n + 1, p, t, q, h => by
    rw [List.replicate_succ] at h
    cases h with
    | concatCons h1 h2 =>
      have := (hm _ _ _ h1).bind (f := fun W _ a => (do let b ← repeatM (m W) n; pure (a ++ b) : M (List Char)))
        ((can_repeatM hm n _ _ _ h2).bind (f := fun _ _ b => (Pure.pure (_ ++ b) : M (List Char))) (Can.pure _))
      exact this

theorem can_rep {g : RxGen} {r : Rx} {mn mx : Int} {n : Nat} {p t q : List Char}
    (hm : ∀ p t q, Matches p r t q → Can stk c (fun W _ => rxGenerate W g) 0 t) (h1 : mn ≤ n) (h2 : (n : Int) ≤ mx)
    (h : Matches p (.concat (List.replicate n r)) t q) : Can stk c (fun W _ => rxGenerate W (.rep g mn mx)) 0 t := by
  have hn := can_repeatM hm n p t q h
  have := (Can.intnWith (c := c) (stk := stk) Can.ambient (n := mx - mn + 1) (k := n - mn) (by omega) (by omega)).bind
    (f := fun W _ k => repeatM (rxGenerate W g) (mn + k).toNat) (by
      rw [show (mn + ((n : Int) - mn)).toNat = n by omega]
      exact hn)
  refine this.congr 0 fun W _ s _ _ => ?_
  simp only [rxGenerate]
  rfl

mutual
/-- Every text that matches the expression, with its repetitions limited, can be forced. -/
theorem can_rx (a : RxArgs) : ∀ (r : Rx) (g : RxGen), newRxGen a r = .ok g → Exhaustive a r → ∀ p t q,
    Matches p (limited a.minUnbounded a.maxUnbounded r) t q → Can stk c (fun W _ => rxGenerate W g) 0 t
  | .emptyMatch, g, hb, he, p, t, q, h => by
    cases hb; simp only [limited] at h; cases h; simp only [rxGenerate]; exact Can.pure _
  | .literal rs, g, hb, he, p, t, q, h => by
    cases hb; simp only [limited] at h
    cases h
    simp only [rxGenerate]
    have : (t.map Char.toNat).map runeToChar = t := by
      rw [List.map_map]
      exact (List.map_congr_left fun x _ => runeToChar_char x).trans (List.map_id t)
    rw [this]
    exact Can.pure _
  | .anyCharNotNL, g, hb, he, p, t, q, h => he.elim
  | .anyChar, g, hb, he, p, t, q, h => by
    simp only [limited] at h
    cases h with
    | @anyChar _ _ x =>
      unfold newRxGen at hb
      have he : a.limitToAscii = false := he
      rw [he] at hb
      cases hb
      have hlt : x.toNat < 2147483648 := by
        have := x.valid
        unfold UInt32.isValidChar Nat.isValidChar at this
        show x.val.toNat < _
        omega
      have := (Can.intnWith (c := c) (stk := stk) Can.ambient (n := 2147483648) (k := (x.toNat : Int)) (by omega) (by omega)).bind
        (f := fun _ _ k => (Pure.pure [runeToChar k.toNat] : M (List Char))) (Can.pure _)
      rw [Int.toNat_natCast, runeToChar_char] at this
      refine this.congr 0 fun W _ s _ _ => ?_
      simp only [rxGenerate]
      rfl
  | .charClass rs, g, hb, he, p, t, q, h => by
    simp only [limited] at h
    cases h with
    | @charClass _ _ _ x hin =>
      simp only [newRxGen] at hb
      cases hk : parseCharClass rs with
      | error e => rw [hk] at hb; cases hb
      | ok k =>
        rw [hk] at hb
        cases hb
        obtain ⟨i, hi, hr⟩ := inClass_index rs k he.1 hk _ hin
        have hsz : ¬ k.totalSize > 100000 := by rw [classSize_total rs k he.1 hk]; exact not_lt.2 he.2
        have := (Can.intnWith (c := c) (stk := stk) Can.ambient (n := k.totalSize) (k := (i : Int)) (by omega) (by omega)).bind
          (f := fun _ _ j => (match getRuneAt k.ranges j.toNat with
            | some r => Pure.pure [runeToChar r]
            | none => Comp.fail "index out of bounds" : M (List Char))) (b := [x]) (by
              rw [Int.toNat_natCast, hr]
              dsimp only
              rw [runeToChar_char]
              exact Can.pure _)
        refine this.congr 0 fun W _ s _ _ => ?_
        simp only [rxGenerate, clsIndex, if_neg hsz]
        rfl
  | .quest r, g, hb, he, p, t, q, h => by
    simp only [limited] at h
    simp only [newRxGen] at hb
    obtain ⟨g', hg, rfl⟩ := wrapRep_ok hb
    cases h with
    | quest n hn h => exact can_rep (can_rx a r g' hg he) (by omega) (by omega) h
  | .star r, g, hb, he, p, t, q, h => by
    simp only [limited] at h
    simp only [newRxGen] at hb
    obtain ⟨g', hg, rfl⟩ := wrapRep_ok hb
    cases h with
    | «repeat» n h1 h2 h => exact can_rep (can_rx a r g' hg he) h1 (by omega) h
  | .plus r, g, hb, he, p, t, q, h => by
    simp only [limited] at h
    simp only [newRxGen] at hb
    obtain ⟨g', hg, rfl⟩ := wrapRep_ok hb
    cases h with
    | «repeat» n h1 h2 h => exact can_rep (can_rx a r g' hg he) h1 (by omega) h
  | .repeat r mn mx, g, hb, he, p, t, q, h => by
    simp only [limited] at h
    simp only [newRxGen] at hb
    obtain ⟨g', hg, rfl⟩ := wrapRep_ok hb
    cases h with
    | «repeat» n h1 h2 h =>
      refine can_rep (can_rx a r g' hg he) h1 ?_ h
      rcases h2 with h2 | h2
      · split at h2 <;> omega
      · exact h2
  | .concat rs, g, hb, he, p, t, q, h => by
    simp only [limited] at h
    simp only [newRxGen] at hb
    cases hg : newRxGens a rs with
    | ok gs =>
      rw [hg] at hb
      cases hb
      simp only [rxGenerate]
      exact can_rxCat a rs gs hg he p t q h
    | err e => rw [hg] at hb; cases hb
    | panic e => rw [hg] at hb; cases hb
  | .alternate rs, g, hb, he, p, t, q, h => by
    simp only [limited] at h
    simp only [newRxGen] at hb
    cases hg : newRxGens a rs with
    | ok gs =>
      rw [hg] at hb
      cases hb
      cases h with
      | alternate hm h =>
        obtain ⟨i, hi, hc⟩ := can_rxNth a rs gs hg he p t q _ hm h
        have := (Can.intnWith (c := c) (stk := stk) Can.ambient (n := goLen gs) (k := (i : Int)) (by omega) (by unfold goLen; omega)).bind
          (f := fun W _ j => rxNth W gs j.toNat) (by rw [Int.toNat_natCast]; exact hc)
        refine this.congr 0 fun W _ s _ _ => ?_
        simp only [rxGenerate]
        rfl
    | err e => rw [hg] at hb; cases hb
    | panic e => rw [hg] at hb; cases hb
  | .capture r, g, hb, he, p, t, q, h => by
    simp only [limited] at h
    simp only [newRxGen] at hb
    cases h with
    | capture h => exact can_rx a r g hb he _ _ _ h
  | .beginLine, g, hb, he, p, t, q, h => by
    cases hb; simp only [limited] at h; cases h; simp only [rxGenerate]; exact Can.pure _
  | .endLine, g, hb, he, p, t, q, h => by
    cases hb; simp only [limited] at h; cases h; simp only [rxGenerate]; exact Can.pure _
  | .beginText, g, hb, he, p, t, q, h => by
    cases hb; simp only [limited] at h; cases h; simp only [rxGenerate]; exact Can.pure _
  | .endText, g, hb, he, p, t, q, h => by
    cases hb; simp only [limited] at h; cases h; simp only [rxGenerate]; exact Can.pure _
  | .wordBoundary, g, hb, he, p, t, q, h => by
    cases hb; simp only [limited] at h; cases h; simp only [rxGenerate]; exact Can.pure _
  | .noWordBoundary, g, hb, he, p, t, q, h => by
    cases hb; simp only [limited] at h; cases h; simp only [rxGenerate]; exact Can.pure _
  | .other, g, hb, he, p, t, q, h => by cases hb
/-- The same for a sequence. -/
theorem can_rxCat (a : RxArgs) : ∀ (rs : List Rx) (gs : List RxGen), newRxGens a rs = .ok gs → Exhaustives a rs → ∀ p t q,
    Matches p (.concat (limiteds a.minUnbounded a.maxUnbounded rs)) t q → Can stk c (fun W _ => rxCat W gs) 0 t
  | [], gs, hb, he, p, t, q, h => by
    cases hb; simp only [limiteds] at h; cases h; simp only [rxCat]; exact Can.pure _
  | r :: rs, gs, hb, he, p, t, q, h => by
    obtain ⟨g, gs', h1, h2, rfl⟩ := newRxGens_cons hb
    simp only [limiteds] at h
    cases h with
    | concatCons ha hc =>
      have := (can_rx a r g h1 he.1 _ _ _ ha).bind (f := fun W _ x => (do let y ← rxCat W gs'; pure (x ++ y) : M (List Char)))
        ((can_rxCat a rs gs' h2 he.2 _ _ _ hc).bind (f := fun _ _ b => (Pure.pure (_ ++ b) : M (List Char))) (Can.pure _))
      refine this.congr 0 fun W _ s _ _ => ?_
      simp only [rxCat]
/-- The same for an alternative. -/
theorem can_rxNth (a : RxArgs) : ∀ (rs : List Rx) (gs : List RxGen), newRxGens a rs = .ok gs → Exhaustives a rs → ∀ p t q x,
    x ∈ limiteds a.minUnbounded a.maxUnbounded rs → Matches p x t q →
    ∃ i < gs.length, Can stk c (fun W _ => rxNth W gs i) 0 t
  | [], gs, hb, he, p, t, q, x, hx, h => by simp [limiteds] at hx
  | r :: rs, gs, hb, he, p, t, q, x, hx, h => by
    obtain ⟨g, gs', h1, h2, rfl⟩ := newRxGens_cons hb
    simp only [limiteds, List.mem_cons] at hx
    rcases hx with rfl | hx
    · refine ⟨0, by simp, ?_⟩
      simp only [rxNth]
      exact can_rx a r g h1 he.1 _ _ _ h
    · obtain ⟨i, hi, hc⟩ := can_rxNth a rs gs' h2 he.2 p t q x hx h
      refine ⟨i + 1, by simp; omega, ?_⟩
      simp only [rxNth]
      exact hc
end

end Chaff
