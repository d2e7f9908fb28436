import Verif.Spec.Regex
import Verif.Lemmas.RandPost
/-!
# C25, C26: strings generated from regular expressions
-/

namespace Chaff
open Comp

theorem newCharClassRange_ok {start stop : Nat} {rg : Nat × Nat} (h : newCharClassRange start stop = .ok rg) :
    1 ≤ start ∧ start ≤ stop ∧ rg.1 = start ∧ rg.2 = stop - start + 1 := by
  unfold newCharClassRange at h
  by_cases h1 : start < 1
  · rw [if_pos h1] at h; cases h
  · rw [if_neg h1] at h
    simp only at h
    by_cases h2 : (stop : Int) - start + 1 < 1
    · rw [if_pos h2] at h; cases h
    · rw [if_neg h2] at h
      cases h
      refine ⟨by omega, by omega, rfl, ?_⟩
      show ((stop : Int) - start + 1).toNat = _
      omega

theorem parseCharClass_cons {lo hi : Nat} {rest : List Nat} {c : CharClass}
    (h : parseCharClass (lo :: hi :: rest) = .ok c) :
    ∃ c', parseCharClass rest = .ok c' ∧ (if lo = 0 then 1 else lo) ≤ hi ∧
      c.ranges = ((if lo = 0 then 1 else lo), hi - (if lo = 0 then 1 else lo) + 1) :: c'.ranges ∧
      c.totalSize = hi - (if lo = 0 then 1 else lo) + 1 + c'.totalSize := by
  simp only [parseCharClass] at h
  cases h1 : newCharClassRange (if lo = 0 then 1 else lo) hi with
  | error e => rw [h1] at h; cases h
  | ok rg =>
    rw [h1] at h
    simp only at h
    cases h2 : parseCharClass rest with
    | error e => rw [h2] at h; cases h
    | ok c' =>
      rw [h2] at h
      cases h
      obtain ⟨_, hb, hc, hd⟩ := newCharClassRange_ok h1
      refine ⟨c', rfl, hb, ?_, ?_⟩
      · show rg :: c'.ranges = _
        rw [show rg = (rg.1, rg.2) from rfl, hc, hd]
      · show rg.2 + _ = _
        rw [hd]

theorem getRuneAt_inClass : ∀ (rs : List Nat) (c : CharClass) (_ : parseCharClass rs = .ok c) (i r : Nat)
    (_ : getRuneAt c.ranges i = some r), InClass rs r
  | [], c, h, i, r, hr => by cases h; simp [getRuneAt] at hr
  | [_], c, h, i, r, hr => by cases h; simp [getRuneAt] at hr
  | lo :: hi :: rest, c, h, i, r, hr => by
    obtain ⟨c', h1, h2, h3, _⟩ := parseCharClass_cons h
    rw [h3] at hr
    simp only [getRuneAt] at hr
    by_cases hi' : i < hi - (if lo = 0 then 1 else lo) + 1
    · rw [if_pos hi'] at hr
      left
      have hr' : (if lo = 0 then 1 else lo) + i = r := by simpa using hr
      by_cases h0 : lo = 0
      · rw [if_pos h0] at hr' hi' h2; omega
      · rw [if_neg h0] at hr' hi' h2; omega
    · rw [if_neg hi'] at hr
      right
      exact getRuneAt_inClass rest c' h1 _ _ hr

theorem runeToChar_toNat {r : Nat} (h : r.isValidChar) : (runeToChar r).toNat = r := by
  unfold runeToChar
  rw [if_pos h]
  simp [Char.ofNat, h, Char.toNat, Char.ofNatAux]

theorem runeToChar_inClass {rs : List Nat} (hok : ClassOk rs) {r : Nat} (h : InClass rs r) :
    InClass rs (runeToChar r).toNat := by
  by_cases hv : r.isValidChar
  · rw [runeToChar_toNat hv]; exact h
  · rcases hok with h1 | h1
    · unfold runeToChar; rw [if_neg hv]; exact h1
    · exact absurd (h1 r h) hv

/-- Repetition: if every run of the part matches everywhere, `n` runs match the `n`-fold concatenation. -/
theorem repeatM_matches {m : M (List Char)} {r : Rx}
    (hm : ∀ s cs s', m s = .ok cs s' → ∀ p q, Matches p r cs q) (n : Nat) (s : GSt) (cs : List Char) (s' : GSt)
    (h : repeatM m n s = .ok cs s') (p q : List Char) : Matches p (.concat (List.replicate n r)) cs q := by
  induction n generalizing s cs s' p with
  | zero =>
    simp [repeatM] at h
    obtain ⟨rfl, _⟩ := h
    exact Matches.concatNil
  | succ n ih =>
    unfold repeatM at h
    obtain ⟨a, s1, h1, h⟩ := bind_ok.1 h
    obtain ⟨b, s2, h2, h⟩ := bind_ok.1 h
    simp at h
    obtain ⟨rfl, _⟩ := h
    exact Matches.concatCons (hm _ _ _ h1 _ _) (ih _ _ _ h2 _)

theorem rep_run {w : World} {g : RxGen} {mn mx : Int} {s s' : GSt} {cs : List Char}
    (h : rxGenerate w (.rep g mn mx) s = .ok cs s') :
    ∃ k : Int, mn ≤ k ∧ k ≤ mx ∧ ∃ s1, repeatM (rxGenerate w g) k.toNat s1 = .ok cs s' := by
  unfold rxGenerate at h
  obtain ⟨k, s1, h1, h⟩ := bind_ok.1 h
  have := intnWith_post _ _ _ k s1 h1
  exact ⟨mn + k, by omega, by omega, s1, h⟩

theorem wrapRep_ok {b : Build RxGen} {mn mx : Int} {g : RxGen} (h : wrapRep b mn mx = .ok g) :
    ∃ g', b = .ok g' ∧ g = .rep g' mn mx := by
  unfold wrapRep at h
  split at h
  · cases h; exact ⟨_, rfl, rfl⟩
  · cases h
  · cases h

mutual
/-- The language lemma behind C25, for expressions without assertions. -/
theorem rx_matches (w : World) (a : RxArgs) (r : Rx) (g : RxGen) (hb : newRxGen a r = .ok g) (hn : NoAssert r)
    (hr : RunesOk r) (s : GSt) (cs : List Char) (s' : GSt) (h : rxGenerate w g s = .ok cs s') (p q : List Char) :
    Matches p r cs q := by
  cases r with
  | emptyMatch =>
    cases hb
    simp [rxGenerate] at h
    obtain ⟨rfl, _⟩ := h
    exact Matches.emptyMatch
  | literal rs =>
    cases hb
    simp [rxGenerate] at h
    obtain ⟨rfl, _⟩ := h
    have : (rs.map runeToChar).map Char.toNat = rs := by
      rw [List.map_map]
      conv => rhs; rw [← List.map_id rs]
      apply List.map_congr_left
      intro n hmem
      exact runeToChar_toNat (hr n hmem)
    have h2 := Matches.literal (p := p) (q := q) (rs.map runeToChar)
    rwa [this] at h2
  | anyChar =>
    cases hb
    cases ha : a.limitToAscii with
    | true =>
      rw [ha] at h
      unfold rxGenerate at h
      obtain ⟨k, s1, _, h⟩ := bind_ok.1 h
      simp at h; obtain ⟨rfl, _⟩ := h
      exact Matches.anyChar
    | false =>
      rw [ha] at h
      unfold rxGenerate at h
      obtain ⟨k, s1, _, h⟩ := bind_ok.1 h
      simp at h; obtain ⟨rfl, _⟩ := h
      exact Matches.anyChar
  | anyCharNotNL =>
    cases ha : a.limitToAscii with
    | false =>
      simp [newRxGen, ha, newCharClass, newCharClassRange] at hb
    | true =>
      simp only [newRxGen, ha, if_true, newCharClass, newCharClassRange] at hb
      norm_num at hb
      cases hb
      unfold rxGenerate at h
      obtain ⟨i, s1, h1, h⟩ := bind_ok.1 h
      obtain ⟨j, s2, h2, h⟩ := bind_ok.1 h
      have hi := intnWith_post _ _ _ i s1 h1
      simp [clsIndex] at h2
      obtain ⟨rfl, rfl⟩ := h2
      have hlt : i.toNat < 62 := by simp at hi; omega
      simp [getRuneAt, hlt] at h
      obtain ⟨rfl, _⟩ := h
      refine Matches.anyCharNotNL (fun he => ?_)
      have hv : (32 + i.toNat).isValidChar := by left; omega
      have := runeToChar_toNat hv
      rw [he] at this
      simp at this
      omega
  | quest r =>
    obtain ⟨g', hg', rfl⟩ := wrapRep_ok hb
    obtain ⟨k, h0, h1, s1, h2⟩ := rep_run h
    exact Matches.quest k.toNat (by omega)
      (repeatM_matches (fun s cs s' h => rx_matches w a r g' hg' hn hr s cs s' h) _ _ _ _ h2 p q)
  | star r =>
    obtain ⟨g', hg', rfl⟩ := wrapRep_ok hb
    obtain ⟨k, h0, h1, s1, h2⟩ := rep_run h
    exact Matches.star k.toNat
      (repeatM_matches (fun s cs s' h => rx_matches w a r g' hg' hn hr s cs s' h) _ _ _ _ h2 p q)
  | plus r =>
    obtain ⟨g', hg', rfl⟩ := wrapRep_ok hb
    obtain ⟨k, h0, h1, s1, h2⟩ := rep_run h
    exact Matches.plus k.toNat (by omega)
      (repeatM_matches (fun s cs s' h => rx_matches w a r g' hg' hn hr s cs s' h) _ _ _ _ h2 p q)
  | «repeat» r mn mx =>
    obtain ⟨g', hg', rfl⟩ := wrapRep_ok hb
    obtain ⟨k, h0, h1, s1, h2⟩ := rep_run h
    refine Matches.repeat k.toNat ?_ ?_
      (repeatM_matches (fun s cs s' h => rx_matches w a r g' hg' hn hr.2 s cs s' h) _ _ _ _ h2 p q)
    · split at h0 <;> omega
    · by_cases hm : mx = -1
      · left; exact hm
      · rw [if_neg hm] at h1
        have := hr.1
        right; omega
  | charClass rs =>
    simp only [newRxGen] at hb
    cases hc : parseCharClass rs with
    | error e => rw [hc] at hb; cases hb
    | ok c =>
      rw [hc] at hb
      cases hb
      unfold rxGenerate at h
      obtain ⟨i, s1, h1, h⟩ := bind_ok.1 h
      obtain ⟨j, s2, h2, h⟩ := bind_ok.1 h
      cases hr' : getRuneAt c.ranges j.toNat with
      | none => rw [hr'] at h; simp at h
      | some r' =>
        rw [hr'] at h
        simp at h; obtain ⟨rfl, _⟩ := h
        exact Matches.charClass (runeToChar_inClass hr (getRuneAt_inClass rs c hc _ _ hr'))
  | concat rs =>
    simp only [newRxGen] at hb
    split at hb
    · rename_i gs hgs
      cases hb
      unfold rxGenerate at h
      exact rx_matches_cat w a rs gs hgs hn hr s cs s' h p q
    · cases hb
    · cases hb
  | alternate rs =>
    simp only [newRxGen] at hb
    split at hb
    · rename_i gs hgs
      cases hb
      unfold rxGenerate at h
      obtain ⟨i, s1, h1, h⟩ := bind_ok.1 h
      obtain ⟨r, hr1, hr2⟩ := rx_matches_nth w a rs gs hgs hn hr i.toNat s1 cs s' h p q
      exact Matches.alternate hr1 hr2
    · cases hb
    · cases hb
  | capture r => exact Matches.capture (rx_matches w a r g hb hn hr s cs s' h p q)
  | beginLine => exact hn.elim
  | endLine => exact hn.elim
  | beginText => exact hn.elim
  | endText => exact hn.elim
  | wordBoundary => exact hn.elim
  | noWordBoundary => exact hn.elim
  | other => cases hb
/-- Concatenations. -/
theorem rx_matches_cat (w : World) (a : RxArgs) (rs : List Rx) (gs : List RxGen) (hb : newRxGens a rs = .ok gs)
    (hn : NoAsserts rs) (hr : RunesOks rs) (s : GSt) (cs : List Char) (s' : GSt) (h : rxCat w gs s = .ok cs s')
    (p q : List Char) : Matches p (.concat rs) cs q := by
  cases rs with
  | nil =>
    cases hb
    simp [rxCat] at h
    obtain ⟨rfl, _⟩ := h
    exact Matches.concatNil
  | cons r rs =>
    simp only [newRxGens] at hb
    split at hb
    · rename_i g hg
      split at hb
      · rename_i gs' hgs'
        cases hb
        unfold rxCat at h
        obtain ⟨u, s1, h1, h⟩ := bind_ok.1 h
        obtain ⟨v, s2, h2, h⟩ := bind_ok.1 h
        simp at h; obtain ⟨rfl, _⟩ := h
        exact Matches.concatCons (rx_matches w a r g hg hn.1 hr.1 _ _ _ h1 _ _)
          (rx_matches_cat w a rs gs' hgs' hn.2 hr.2 _ _ _ h2 _ _)
      · cases hb
      · cases hb
    · cases hb
    · cases hb
/-- Alternatives. -/
theorem rx_matches_nth (w : World) (a : RxArgs) (rs : List Rx) (gs : List RxGen) (hb : newRxGens a rs = .ok gs)
    (hn : NoAsserts rs) (hr : RunesOks rs) (i : Nat) (s : GSt) (cs : List Char) (s' : GSt)
    (h : rxNth w gs i s = .ok cs s') (p q : List Char) : ∃ r ∈ rs, Matches p r cs q := by
  cases rs with
  | nil =>
    cases hb
    simp [rxNth] at h
  | cons r rs =>
    simp only [newRxGens] at hb
    split at hb
    · rename_i g hg
      split at hb
      · rename_i gs' hgs'
        cases hb
        cases i with
        | zero =>
          unfold rxNth at h
          exact ⟨r, List.mem_cons_self, rx_matches w a r g hg hn.1 hr.1 _ _ _ h _ _⟩
        | succ i =>
          unfold rxNth at h
          obtain ⟨r', h1, h2⟩ := rx_matches_nth w a rs gs' hgs' hn.2 hr.2 i _ _ _ h p q
          exact ⟨r', List.mem_cons_of_mem _ h1, h2⟩
      · cases hb
      · cases hb
    · cases hb
    · cases hb
end


theorem noAsserts_append {l m : List Rx} : RunesOks (l ++ m) ↔ RunesOks l ∧ RunesOks m := by
  induction l with
  | nil => simp [RunesOks]
  | cons a t ih => simp [RunesOks, ih, and_assoc]

/-- Inversion of building a list of generators. -/
theorem newRxGens_cons {a : RxArgs} {r : Rx} {rs : List Rx} {gs : List RxGen} (h : newRxGens a (r :: rs) = .ok gs) :
    ∃ g gs', newRxGen a r = .ok g ∧ newRxGens a rs = .ok gs' ∧ gs = g :: gs' := by
  simp only [newRxGens] at h
  split at h
  · rename_i g hg
    split at h
    · rename_i gs' hgs'
      cases h
      exact ⟨g, gs', hg, hgs', rfl⟩
    · cases h
    · cases h
  · cases h
  · cases h

theorem rxCat_cons {w : World} {g : RxGen} {gs : List RxGen} {s s' : GSt} {cs : List Char}
    (h : rxCat w (g :: gs) s = .ok cs s') :
    ∃ u v s1, rxGenerate w g s = .ok u s1 ∧ rxCat w gs s1 = .ok v s' ∧ cs = u ++ v := by
  unfold rxCat at h
  obtain ⟨u, s1, h1, h⟩ := bind_ok.1 h
  obtain ⟨v, s2, h2, h⟩ := bind_ok.1 h
  simp at h; obtain ⟨rfl, rfl⟩ := h
  exact ⟨u, v, s1, h1, h2, rfl⟩

theorem cat_end (w : World) (a : RxArgs) (e : List Rx) (gs : List RxGen) (hb : newRxGens a e = .ok gs)
    (he : ∀ x ∈ e, x = .endText ∨ x = .endLine) (s : GSt) (cs : List Char) (s' : GSt) (h : rxCat w gs s = .ok cs s')
    (p : List Char) : cs = [] ∧ Matches p (.concat e) [] [] := by
  induction e generalizing gs s cs s' p with
  | nil =>
    cases hb
    simp [rxCat] at h
    exact ⟨h.1, Matches.concatNil⟩
  | cons r rs ih =>
    obtain ⟨g, gs', h1, h2, rfl⟩ := newRxGens_cons hb
    obtain ⟨u, v, s1, h3, h4, rfl⟩ := rxCat_cons h
    obtain ⟨rfl, hm⟩ := ih gs' h2 (fun x hx => he x (List.mem_cons_of_mem _ hx)) _ _ _ h4 p
    have hr : g = .empty := by
      rcases he r List.mem_cons_self with rfl | rfl <;> (cases h1; rfl)
    subst hr
    simp [rxGenerate] at h3
    obtain ⟨rfl, _⟩ := h3
    refine ⟨rfl, ?_⟩
    refine Matches.concatCons (u := []) (v := []) ?_ (by simpa using hm)
    rcases he r List.mem_cons_self with rfl | rfl
    · exact Matches.endText
    · exact Matches.endLine (Or.inl rfl)

theorem cat_mid (w : World) (a : RxArgs) (m e : List Rx) (gs : List RxGen) (hb : newRxGens a (m ++ e) = .ok gs)
    (hm : NoAsserts m) (hr : RunesOks (m ++ e))
    (he : ∀ x ∈ e, x = .endText ∨ x = .endLine) (s : GSt) (cs : List Char) (s' : GSt) (h : rxCat w gs s = .ok cs s')
    (p : List Char) : Matches p (.concat (m ++ e)) cs [] := by
  induction m generalizing gs s cs s' p with
  | nil =>
    obtain ⟨rfl, h1⟩ := cat_end w a e gs hb he s cs s' h p
    exact h1
  | cons r rs ih =>
    obtain ⟨g, gs', h1, h2, rfl⟩ := newRxGens_cons hb
    obtain ⟨u, v, s1, h3, h4, rfl⟩ := rxCat_cons h
    exact Matches.concatCons (rx_matches w a r g h1 hm.1 hr.1 _ _ _ h3 _ _) (ih gs' h2 hm.2 hr.2 _ _ _ h4 _)

theorem cat_anchored (w : World) (a : RxArgs) (b m e : List Rx) (gs : List RxGen)
    (hg : newRxGens a (b ++ (m ++ e)) = .ok gs) (hm : NoAsserts m) (hr : RunesOks (b ++ (m ++ e)))
    (hb : ∀ x ∈ b, x = .beginText ∨ x = .beginLine) (he : ∀ x ∈ e, x = .endText ∨ x = .endLine) (s : GSt)
    (cs : List Char) (s' : GSt) (h : rxCat w gs s = .ok cs s') : Matches [] (.concat (b ++ (m ++ e))) cs [] := by
  induction b generalizing gs s cs s' with
  | nil => exact cat_mid w a m e gs hg hm hr he s cs s' h []
  | cons r rs ih =>
    obtain ⟨g, gs', h1, h2, rfl⟩ := newRxGens_cons hg
    obtain ⟨u, v, s1, h3, h4, rfl⟩ := rxCat_cons h
    have hr' : g = .empty := by
      rcases hb r List.mem_cons_self with rfl | rfl <;> (cases h1; rfl)
    subst hr'
    simp [rxGenerate] at h3
    obtain ⟨rfl, _⟩ := h3
    refine Matches.concatCons (u := []) ?_ (ih gs' h2 hr.2 (fun x hx => hb x (List.mem_cons_of_mem _ hx)) _ _ _ h4)
    rcases hb r List.mem_cons_self with rfl | rfl
    · exact Matches.beginText
    · exact Matches.beginLine (Or.inl rfl)

/-- Building a list of generators: the generator at each position comes from the expression there. -/
theorem rxNth_mem (w : World) (a : RxArgs) (rs : List Rx) (gs : List RxGen) (hb : newRxGens a rs = .ok gs) (i : Nat)
    (s : GSt) (cs : List Char) (s' : GSt) (h : rxNth w gs i s = .ok cs s') :
    ∃ r ∈ rs, ∃ g, newRxGen a r = .ok g ∧ rxGenerate w g s = .ok cs s' := by
  induction rs generalizing gs i with
  | nil => cases hb; simp [rxNth] at h
  | cons r rs ih =>
    obtain ⟨g, gs', h1, h2, rfl⟩ := newRxGens_cons hb
    cases i with
    | zero => exact ⟨r, List.mem_cons_self, g, h1, h⟩
    | succ i =>
      obtain ⟨r', hm, h3⟩ := ih gs' h2 i h
      exact ⟨r', List.mem_cons_of_mem _ hm, h3⟩

theorem runesOks_mem {rs : List Rx} (h : RunesOks rs) {r : Rx} (hm : r ∈ rs) : RunesOk r := by
  induction rs with
  | nil => cases hm
  | cons a t ih =>
    rcases List.mem_cons.1 hm with rfl | hm
    · exact h.1
    · exact ih h.2 hm

/-- C25: for an expression whose assertions are anchors at the two ends, every generated string is matched as a
whole. -/
theorem C25_generated_matches (w : World) (a : RxArgs) (r : Rx) (g : RxGen) (hb : newRxGen a r = .ok g)
    (ha : Anchored r) (hr : RunesOk r) (s : GSt) (cs : List Char) (s' : GSt) (h : rxGenerate w g s = .ok cs s') :
    Matches [] r cs [] := by
  induction ha generalizing g s cs s' with
  | plain hn => exact rx_matches w a _ g hb hn hr s cs s' h [] []
  | anchors b m e h1 h2 h3 =>
    simp only [newRxGen] at hb
    split at hb
    · rename_i gs hgs
      cases hb
      unfold rxGenerate at h
      exact cat_anchored w a b m e gs hgs h2 hr h1 h3 s cs s' h
    · cases hb
    · cases hb
  | @alternate rs hrs ih =>
    simp only [newRxGen] at hb
    split at hb
    · rename_i gs hgs
      cases hb
      unfold rxGenerate at h
      obtain ⟨i, s1, h1, h⟩ := bind_ok.1 h
      obtain ⟨r, hr1, g, hg, hrun⟩ := rxNth_mem w a rs gs hgs i.toNat s1 cs s' h
      exact Matches.alternate hr1 (ih r hr1 g hg (runesOks_mem hr hr1) _ _ _ hrun)
    · cases hb
    · cases hb
  | capture _ ih => exact Matches.capture (ih g hb hr s cs s' h)
  | single h1 =>
    rcases h1 with rfl | rfl | rfl | rfl
    all_goals
      cases hb
      simp [rxGenerate] at h
      obtain ⟨rfl, _⟩ := h
    · exact Matches.beginText
    · exact Matches.beginLine (Or.inl rfl)
    · exact Matches.endText
    · exact Matches.endLine (Or.inl rfl)

theorem replaceAllGo_none {old new : List Char} {c0 : Char} {rest : List Char} (ho : old = c0 :: rest) (l : List Char)
    (h : c0 ∉ l) : replaceAllGo old new 0 l = l := by
  induction l with
  | nil => rfl
  | cons c cs ih =>
    unfold replaceAllGo
    have : ¬ (old.isPrefixOf (c :: cs) = true) := by
      subst ho
      intro hp
      simp [List.isPrefixOf] at hp
      exact h (by simp [hp.1])
    rw [if_neg this, ih (fun hm => h (List.mem_cons_of_mem _ hm))]

theorem replaceAllGo_dot {new : List Char} (l : List Char) (h : '.' ∉ l) :
    replaceAllGo "\\.".toList new 0 l = l := by
  induction l with
  | nil => rfl
  | cons c cs ih =>
    unfold replaceAllGo
    have : ¬ (("\\.".toList).isPrefixOf (c :: cs) = true) := by
      intro hp
      have h2 : ("\\.".toList) <+: (c :: cs) := List.isPrefixOf_iff_prefix.1 hp
      exact h (h2.subset (by decide))
    rw [if_neg this, ih (fun hm => h (List.mem_cons_of_mem _ hm))]

theorem replaceAllGo_tilde {old new : List Char} (ho : '~' ∈ old) (l : List Char) (h : '~' ∉ l) :
    replaceAllGo old new 0 l = l := by
  induction l with
  | nil => rfl
  | cons c cs ih =>
    unfold replaceAllGo
    have : ¬ (old.isPrefixOf (c :: cs) = true) := by
      intro hp
      have h2 : old <+: (c :: cs) := List.isPrefixOf_iff_prefix.1 hp
      exact h (h2.subset ho)
    rw [if_neg this, ih (fun hm => h (List.mem_cons_of_mem _ hm))]

/-- A pattern with neither `.` nor `~` is left alone by the rewriting of regex.go. -/
theorem suppressDots_id (p : List Char) (h : '.' ∉ p) (h2 : '~' ∉ p) : suppressDots p = p := by
  unfold suppressDots replaceAll
  rw [replaceAllGo_dot p h, replaceAllGo_none (show ".".toList = '.' :: [] from rfl) p h, replaceAllGo_tilde (by decide) p h2]

/-- C25 from the pattern text: whatever regular expression parser is used, if the pattern contains neither `.` nor
`~`, or random bytes are not suppressed, every string generated for the pattern is matched by what the parser makes
of that pattern. -/
theorem C25_pattern_text (w : World) (parse : List Char → Option Rx) (a : RxArgs) (pattern : List Char) (g : RxGen)
    (hb : newRegexGenerator parse a pattern = .ok g)
    (hp : a.suppressRandomBytes = false ∨ ('.' ∉ pattern ∧ '~' ∉ pattern)) (r : Rx) (hr : parse pattern = some r)
    (ha : Anchored r) (hok : RunesOk r) (s : GSt) (cs : List Char) (s' : GSt) (h : rxGenerate w g s = .ok cs s') :
    Matches [] r cs [] := by
  unfold newRegexGenerator at hb
  have hpat : (if a.suppressRandomBytes then suppressDots pattern else pattern) = pattern := by
    rcases hp with h | ⟨h, h2⟩
    · rw [h]; rfl
    · split
      · exact suppressDots_id _ h h2
      · rfl
  simp only [hpat, hr] at hb
  split at hb
  · cases hb
  · exact C25_generated_matches w _ r g hb ha hok s cs s' h

/-- The word characters, as the class `\w`. -/
def wordClass : List Nat := [48, 57, 65, 90, 95, 95, 97, 122]

/-- C25 fails for `[.]` under the default options: the pattern is rewritten to `[\w]`, so for every regular
expression parser that reads `[.]` and `[\w]` as usual no generated string matches the pattern. -/
theorem C25_dot_class_violation (w : World) (parse : List Char → Option Rx) (a : RxArgs)
    (ha : a.suppressRandomBytes = true) (h1 : parse "[\\w]".toList = some (.charClass wordClass))
    (_h2 : parse "[.]".toList = some (.literal [46])) (g : RxGen)
    (hb : newRegexGenerator parse a "[.]".toList = .ok g) (s : GSt) (cs : List Char) (s' : GSt)
    (h : rxGenerate w g s = .ok cs s') : ¬ Matches [] (.literal [46]) cs [] := by
  unfold newRegexGenerator at hb
  have hp : (if a.suppressRandomBytes then suppressDots "[.]".toList else "[.]".toList) = "[\\w]".toList := by
    rw [ha]; decide +kernel
  simp only [hp, h1] at hb
  split at hb
  · cases hb
  · rename_i a' _
    have hm := C25_generated_matches w a' (.charClass wordClass) g hb (Anchored.plain trivial) (by
      refine Or.inr (fun n hn => ?_)
      simp [wordClass, InClass] at hn
      left; omega) s cs s' h
    intro hlit
    cases hm with
    | charClass hc =>
      generalize hl : Rx.literal [46] = l at hlit
      generalize hcs : ([_] : List Char) = cs' at hlit
      cases hlit <;> simp at hl
      rename_i cs2
      subst hcs
      simp at hl
      simp [wordClass, InClass] at hc
      omega

/-- The arguments used by default (parse.go 430-434). -/
def defaultRx : RxArgs := { maxUnbounded := 10, suppressRandomBytes := true }

theorem wrapRep_noPanic {b : Build RxGen} {mn mx : Int} (h : ∀ e, b ≠ .panic e) (e : String) :
    wrapRep b mn mx ≠ .panic e := by
  unfold wrapRep
  cases b with
  | ok g => exact fun h => by cases h
  | err m => exact fun h => by cases h
  | panic m => exact absurd rfl (h m)

/-- A class with well-formed ranges parses, and its runes can be addressed up to the total size. -/
theorem parseCharClass_ok : ∀ (rs : List Nat), RangesOk rs → ∃ c, parseCharClass rs = .ok c ∧
    (2 ≤ rs.length → 0 < c.totalSize) ∧ ∀ i, i < c.totalSize → ∃ r, getRuneAt c.ranges i = some r
  | [], _ => ⟨⟨[], 0⟩, rfl, by simp, by simp⟩
  | [_], _ => ⟨⟨[], 0⟩, rfl, by simp, by simp⟩
  | lo :: hi :: rest, h => by
    obtain ⟨c', h1, _, h3⟩ := parseCharClass_ok rest h.2
    have hlo : (if lo = 0 then 1 else lo) ≤ hi ∧ 1 ≤ (if lo = 0 then 1 else lo) := by
      have := h.1
      split <;> omega
    generalize hl : (if lo = 0 then 1 else lo) = lo' at hlo
    have h4 : newCharClassRange lo' hi = .ok (lo', ((hi : Int) - lo' + 1).toNat) := by
      unfold newCharClassRange
      rw [if_neg (by omega)]
      simp only
      rw [if_neg (by omega)]
    refine ⟨⟨(lo', ((hi : Int) - lo' + 1).toNat) :: c'.ranges, ((hi : Int) - lo' + 1).toNat + c'.totalSize⟩, ?_, ?_, ?_⟩
    · simp only [parseCharClass, hl, h4, h1]
    · intro _; show 0 < _ + _; omega
    · intro i hi'
      simp only [getRuneAt]
      by_cases hlt : i < ((hi : Int) - lo' + 1).toNat
      · rw [if_pos hlt]; exact ⟨_, rfl⟩
      · rw [if_neg hlt]
        apply h3
        have : i < ((hi : Int) - lo' + 1).toNat + c'.totalSize := hi'
        omega

mutual
/-- C26, building: a safe expression never makes the constructor panic. -/
theorem C26_build_no_panic (a : RxArgs) (r : Rx) (hs : RxSafe a r) (e : String) : newRxGen a r ≠ .panic e := by
  cases r with
  | emptyMatch => exact fun h => by cases h
  | literal rs => exact fun h => by cases h
  | anyChar => exact fun h => by cases h
  | anyCharNotNL =>
    have : a.limitToAscii = true := hs
    simp only [newRxGen, this]
    intro h
    cases h
  | quest r => exact wrapRep_noPanic (C26_build_no_panic a r hs) e
  | star r => exact wrapRep_noPanic (C26_build_no_panic a r hs.2) e
  | plus r => exact wrapRep_noPanic (C26_build_no_panic a r hs.2) e
  | «repeat» r mn mx => exact wrapRep_noPanic (C26_build_no_panic a r hs.2) e
  | charClass rs =>
    intro h
    obtain ⟨c, hc, _⟩ := parseCharClass_ok rs hs.1
    simp only [newRxGen, hc] at h
    cases h
  | concat rs =>
    intro h
    simp only [newRxGen] at h
    split at h
    · cases h
    · cases h
    · rename_i e' he'
      exact rx_build_no_panics a rs hs e' he'
  | alternate rs =>
    intro h
    simp only [newRxGen] at h
    split at h
    · cases h
    · cases h
    · rename_i e' he'
      exact rx_build_no_panics a rs hs.2 e' he'
  | capture r => exact C26_build_no_panic a r hs e
  | beginLine => exact fun h => by cases h
  | endLine => exact fun h => by cases h
  | beginText => exact fun h => by cases h
  | endText => exact fun h => by cases h
  | wordBoundary => exact fun h => by cases h
  | noWordBoundary => exact fun h => by cases h
  | other => exact fun h => by cases h
/-- The same for lists. -/
theorem rx_build_no_panics (a : RxArgs) (rs : List Rx) (hs : RxSafes a rs) (e : String) :
    newRxGens a rs ≠ .panic e := by
  cases rs with
  | nil => exact fun h => by cases h
  | cons r rs =>
    intro h
    simp only [newRxGens] at h
    split at h
    · split at h
      · cases h
      · cases h
      · rename_i e' he'
        exact rx_build_no_panics a rs hs.2 e' he'
    · cases h
    · rename_i e' he'
      exact C26_build_no_panic a r hs.1 e' he'
end


theorem repeatM_noPanic {m : M (List Char)} (h : NoPanic m) (n : Nat) : NoPanic (repeatM m n) := by
  induction n with
  | zero => exact NoPanic.pure
  | succ n ih => exact NoPanic.bind h (fun _ => NoPanic.bind ih (fun _ => NoPanic.pure))

theorem rep_noPanic {w : World} {g : RxGen} {mn mx : Int} (hg : NoPanic (rxGenerate w g)) (h : mn ≤ mx) :
    NoPanic (rxGenerate w (.rep g mn mx)) := by
  unfold rxGenerate
  exact NoPanic.bind (intnWith_noPanic (drawAmbient_draws w) (by omega)) (fun k => repeatM_noPanic hg _)

theorem cls_noPanic {w : World} {c : CharClass} (hpos : 0 < c.totalSize)
    (hget : ∀ i, i < c.totalSize → ∃ r, getRuneAt c.ranges i = some r) : NoPanic (rxGenerate w (.cls c)) := by
  unfold rxGenerate
  refine NoPanic.bindPost (fun i => 0 ≤ i ∧ i < (c.totalSize : Int))
    (intnWith_noPanic (drawAmbient_draws w) (by omega)) (fun s => intnWith_post _ _ s) (fun i hi => ?_)
  refine NoPanic.bindPost (fun j => 0 ≤ j ∧ j < (c.totalSize : Int)) ?_ ?_ ?_
  · unfold clsIndex
    split
    · exact NoPanic.bind (intnWith_noPanic (drawAmbient_draws w) (by omega)) (fun _ => NoPanic.pure)
    · exact NoPanic.pure
  · intro s j s' hj
    unfold clsIndex at hj
    split at hj
    · obtain ⟨k, s1, hk, hj⟩ := bind_ok.1 hj
      have := intnWith_post _ _ _ k s1 hk
      simp at hj
      obtain ⟨rfl, _⟩ := hj
      omega
    · simp at hj
      obtain ⟨rfl, _⟩ := hj
      exact hi
  · intro j hj
    obtain ⟨r, hr⟩ := hget j.toNat (by omega)
    rw [hr]
    exact NoPanic.pure

mutual
/-- C26, running: the generator of a safe expression never panics. -/
theorem C26_run_no_panic (w : World) (a : RxArgs) (r : Rx) (hs : RxSafe a r) (g : RxGen)
    (hb : newRxGen a r = .ok g) : NoPanic (rxGenerate w g) := by
  cases r with
  | emptyMatch => cases hb; unfold rxGenerate; exact NoPanic.pure
  | literal rs => cases hb; unfold rxGenerate; exact NoPanic.pure
  | anyChar =>
    cases hb
    cases a.limitToAscii <;> unfold rxGenerate <;>
      exact NoPanic.bind (intnWith_noPanic (drawAmbient_draws w) (by omega)) (fun _ => NoPanic.pure)
  | anyCharNotNL =>
    have : a.limitToAscii = true := hs
    simp only [newRxGen, this, if_true, newCharClass, newCharClassRange] at hb
    norm_num at hb
    cases hb
    refine cls_noPanic (by simp) (fun i hi => ?_)
    have hi' : i < 62 := hi
    exact ⟨32 + i, by simp [getRuneAt, hi']⟩
  | quest r =>
    obtain ⟨g', hg', rfl⟩ := wrapRep_ok hb
    exact rep_noPanic (C26_run_no_panic w a r hs g' hg') (by omega)
  | star r =>
    obtain ⟨g', hg', rfl⟩ := wrapRep_ok hb
    exact rep_noPanic (C26_run_no_panic w a r hs.2 g' hg') (by have := hs.1; omega)
  | plus r =>
    obtain ⟨g', hg', rfl⟩ := wrapRep_ok hb
    exact rep_noPanic (C26_run_no_panic w a r hs.2 g' hg') (by have := hs.1; omega)
  | «repeat» r mn mx =>
    obtain ⟨g', hg', rfl⟩ := wrapRep_ok hb
    exact rep_noPanic (C26_run_no_panic w a r hs.2 g' hg') hs.1
  | charClass rs =>
    obtain ⟨c, hc, h1, h2⟩ := parseCharClass_ok rs hs.1
    simp only [newRxGen, hc] at hb
    cases hb
    exact cls_noPanic (h1 hs.2) h2
  | concat rs =>
    simp only [newRxGen] at hb
    split at hb
    · rename_i gs hgs
      cases hb
      unfold rxGenerate
      exact rx_cat_no_panic w a rs hs gs hgs
    · cases hb
    · cases hb
  | alternate rs =>
    simp only [newRxGen] at hb
    split at hb
    · rename_i gs hgs
      cases hb
      have hpos : 0 < gs.length := by
        cases rs with
        | nil => exact absurd rfl hs.1
        | cons r rs =>
          obtain ⟨_, _, _, _, rfl⟩ := newRxGens_cons hgs
          simp
      unfold rxGenerate
      refine NoPanic.bindPost (fun i => 0 ≤ i ∧ i < goLen gs)
        (intnWith_noPanic (drawAmbient_draws w) (by unfold goLen; omega)) (fun s => intnWith_post _ _ s) (fun i hi => ?_)
      exact rx_nth_no_panic w a rs hs.2 gs hgs i.toNat (by unfold goLen at hi; omega)
    · cases hb
    · cases hb
  | capture r => exact C26_run_no_panic w a r hs g hb
  | beginLine => cases hb; unfold rxGenerate; exact NoPanic.pure
  | endLine => cases hb; unfold rxGenerate; exact NoPanic.pure
  | beginText => cases hb; unfold rxGenerate; exact NoPanic.pure
  | endText => cases hb; unfold rxGenerate; exact NoPanic.pure
  | wordBoundary => cases hb; unfold rxGenerate; exact NoPanic.pure
  | noWordBoundary => cases hb; unfold rxGenerate; exact NoPanic.pure
  | other => cases hb
/-- Concatenations. -/
theorem rx_cat_no_panic (w : World) (a : RxArgs) (rs : List Rx) (hs : RxSafes a rs) (gs : List RxGen)
    (hb : newRxGens a rs = .ok gs) : NoPanic (rxCat w gs) := by
  cases rs with
  | nil => cases hb; unfold rxCat; exact NoPanic.pure
  | cons r rs =>
    obtain ⟨g, gs', h1, h2, rfl⟩ := newRxGens_cons hb
    unfold rxCat
    exact NoPanic.bind (C26_run_no_panic w a r hs.1 g h1)
      (fun _ => NoPanic.bind (rx_cat_no_panic w a rs hs.2 gs' h2) (fun _ => NoPanic.pure))
/-- Alternatives. -/
theorem rx_nth_no_panic (w : World) (a : RxArgs) (rs : List Rx) (hs : RxSafes a rs) (gs : List RxGen)
    (hb : newRxGens a rs = .ok gs) (i : Nat) (hi : i < gs.length) : NoPanic (rxNth w gs i) := by
  cases rs with
  | nil => cases hb; simp at hi
  | cons r rs =>
    obtain ⟨g, gs', h1, h2, rfl⟩ := newRxGens_cons hb
    cases i with
    | zero => unfold rxNth; exact C26_run_no_panic w a r hs.1 g h1
    | succ i =>
      unfold rxNth
      exact rx_nth_no_panic w a rs hs.2 gs' h2 i (by simpa using hi)
end

/-- C26 for patterns: with ordered repeat options, building from the text never panics when the parser's result is
safe. -/
theorem C26_pattern_no_panic (parse : List Char → Option Rx) (a : RxArgs) (pattern : List Char)
    (ho : a.minUnbounded ≤ (if a.maxUnbounded < 1 then 4096 else a.maxUnbounded))
    (hs : ∀ r, parse (if a.suppressRandomBytes then suppressDots pattern else pattern) = some r → ∀ a', RxArgs.initialize a = .ok a' → RxSafe a' r)
    (e : String) : newRegexGenerator parse a pattern ≠ .panic e := by
  intro h
  unfold newRegexGenerator at h
  simp only at h
  split at h
  · rename_i e' he'
    unfold RxArgs.initialize at he'
    simp only at he'
    by_cases h1 : a.maxUnbounded < 1
    · rw [if_pos h1] at ho
      rw [if_pos h1, if_neg (by show ¬ (a.minUnbounded > 4096); omega)] at he'
      cases he'
    · rw [if_neg h1] at ho
      rw [if_neg h1, if_neg (by omega)] at he'
      cases he'
  · rename_i a' ha'
    cases hp : parse (if a.suppressRandomBytes then suppressDots pattern else pattern) with
    | none => rw [hp] at h; cases h
    | some r =>
      rw [hp] at h
      exact C26_build_no_panic a' r (hs r hp a' ha') e h

/-- C26, the named failing case: a range holding only NUL panics while the schema is being parsed. -/
theorem C26_nul_class_violation (a : RxArgs) (rest : List Nat) :
    newRxGen a (.charClass (0 :: 0 :: rest)) = .panic "char class range size must be at least 1" := by
  rfl

/-- C26, the other failing case: without the ASCII limit `.` panics for every setting of the other options. -/
theorem C26_dot_violation (a : RxArgs) (h : a.limitToAscii = false) :
    newRxGen a .anyCharNotNL = .panic "char class range cannot contain runes less than 1" := by
  simp [newRxGen, h, newCharClass, newCharClassRange]

/-- `(ab|[x-z])+c?` with the anchors of `^...$`. -/
def demoRx : Rx :=
  .concat [.beginText, .plus (.capture (.alternate [.literal [97, 98], .charClass [120, 122]])), .quest (.literal [99]), .endText]

theorem demoRx_anchored : Anchored demoRx :=
  Anchored.anchors [.beginText] [.plus (.capture (.alternate [.literal [97, 98], .charClass [120, 122]])), .quest (.literal [99])]
    [.endText] (by simp) (by simp [NoAsserts, NoAssert]) (by simp)

theorem demoRx_ok : RunesOk demoRx := by
  simp only [demoRx, RunesOk, RunesOks, and_true, true_and]
  refine ⟨⟨?_, ?_⟩, ?_⟩
  · intro n hn
    simp at hn
    rcases hn with rfl | rfl <;> decide
  · refine Or.inr (fun n hn => ?_)
    simp [InClass] at hn
    left; omega
  · intro n hn
    simp at hn
    subst hn; decide

/-- The hypotheses of the theorems above hold for `^(ab|[x-z])+c?$`, which is also safe. -/
example : Anchored demoRx ∧ RunesOk demoRx ∧ RxSafe defaultRx demoRx ∧ ∃ g, newRxGen defaultRx demoRx = .ok g :=
  ⟨demoRx_anchored, demoRx_ok, by simp [demoRx, RxSafe, RxSafes, RangesOk, defaultRx], ⟨_, rfl⟩⟩

end Chaff
