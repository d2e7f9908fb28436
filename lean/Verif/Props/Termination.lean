import Verif.Lemmas.Evol
import Mathlib.Tactic.Linarith
/-!
# C01, C03, C04, C05: termination, reference stack, cycles, complexity
-/

set_option linter.unusedVariables false

namespace Chaff
open Comp

/-! ## C01 -/

/-- The tree of sub-generators below `g` has at most `n` levels. -/
def HeightLE : Nat → Gen → Prop
  | 0, _ => False
  | n + 1, g => ∀ g' ∈ children g, HeightLE n g'

theorem HeightLE.mono {n m : Nat} (hnm : n ≤ m) {g : Gen} (h : HeightLE n g) : HeightLE m g := by
  induction n generalizing m g with
  | zero => exact h.elim
  | succ n ih =>
    cases m with
    | zero => omega
    | succ m => exact fun g' hg' => ih (by omega) (h g' hg')

theorem sizeOf_mem_opt {g : Gen} {o : Option Gen} (h : g ∈ o.toList) : sizeOf g < sizeOf o := by
  cases o with
  | none => simp at h
  | some x => simp at h; subst h; simp

theorem sizeOf_mem_map_snd {g : Gen} {l : List (String × Gen)} (h : g ∈ l.map Prod.snd) : sizeOf g < sizeOf l := by
  obtain ⟨p, hp, rfl⟩ := List.mem_map.1 h
  have := List.sizeOf_lt_of_mem hp
  obtain ⟨a, b⟩ := p
  simp at this ⊢
  omega

theorem sizeOf_mem_map_pat {g : Gen} {l : List (String × (Gen × Option RxGen))} (h : g ∈ l.map (fun p => p.2.1)) :
    sizeOf g < sizeOf l := by
  obtain ⟨p, hp, rfl⟩ := List.mem_map.1 h
  have := List.sizeOf_lt_of_mem hp
  obtain ⟨a, b, c⟩ := p
  simp at this ⊢
  omega

theorem sizeOf_constrChildren {g : Gen} {k : Constr Gen} (h : g ∈ constrChildren k) : sizeOf g < sizeOf k := by
  cases k with
  | oneOf _ => simp [constrChildren] at h
  | multi _ => simp [constrChildren] at h
  | ifs cs =>
    simp only [constrChildren, List.mem_flatMap, List.mem_append] at h
    obtain ⟨ic, hic, h⟩ := h
    have h1 := List.sizeOf_lt_of_mem hic
    obtain ⟨a, b, d⟩ := ic
    simp at h1 h ⊢
    rcases h with h | h <;> subst h <;> simp at h1 <;> omega

/-- Every generator tree is finite. -/
theorem exists_heightLE (g : Gen) : ∃ n, HeightLE n g := by
  suffices h : ∀ n, ∀ g : Gen, sizeOf g < n → HeightLE (n + 2) g from ⟨_, h (sizeOf g + 1) g (by omega)⟩
  have hstr : ∀ n, HeightLE (n + 1) (.str {}) := fun n g' hg' => by simp [children] at hg'
  have hnull : ∀ n, HeightLE (n + 1) .null := fun n g' hg' => by simp [children] at hg'
  intro n
  induction n with
  | zero => intro g h; omega
  | succ n ih =>
    intro g hg g' hg'
    cases g with
    | arr a =>
      obtain ⟨t, i, ad, co, u, b1, b2, m1, m2, m3, b3⟩ := a
      simp only [children, List.mem_append, List.mem_cons, List.not_mem_nil, or_false] at hg'
      rcases hg' with ((((h | h) | h) | h) | h) | h
      · have := List.sizeOf_lt_of_mem h; simp at hg; exact ih _ (by omega)
      · have := sizeOf_mem_opt h; simp at hg; exact ih _ (by omega)
      · have := sizeOf_mem_opt h; simp at hg; exact ih _ (by omega)
      · have := sizeOf_mem_opt h; simp at hg; exact ih _ (by omega)
      · have := sizeOf_mem_opt h; simp at hg; exact ih _ (by omega)
      · rcases h with rfl | rfl
        · exact hstr _
        · exact hnull _
    | obj a =>
      obtain ⟨p, pp, b1, ad, m1, m2, r⟩ := a
      simp only [children, List.mem_append, List.mem_cons, List.not_mem_nil, or_false] at hg'
      rcases hg' with ((h | h) | h) | h
      · have := sizeOf_mem_map_snd h; simp at hg; exact ih _ (by omega)
      · have := sizeOf_mem_map_pat h; simp at hg; exact ih _ (by omega)
      · have := sizeOf_mem_opt h; simp at hg; exact ih _ (by omega)
      · rcases h with rfl; exact hnull _
    | multi gs => have := List.sizeOf_lt_of_mem (show g' ∈ gs from hg'); simp at hg; exact ih _ (by omega)
    | comb gs => have := List.sizeOf_lt_of_mem (show g' ∈ gs from hg'); simp at hg; exact ih _ (by omega)
    | constrained g cs =>
      simp only [children, List.mem_cons, List.mem_flatMap] at hg'
      rcases hg' with rfl | ⟨k, hk, h⟩
      · simp at hg; exact ih _ (by omega)
      · have h1 := List.sizeOf_lt_of_mem hk
        have h2 := sizeOf_constrChildren h
        simp at hg; exact ih _ (by omega)
    | allOf g =>
      simp only [children, List.mem_singleton] at hg'
      subst hg'; simp at hg; exact ih _ (by omega)
    | _ => simp [children] at hg'

/-- The filling loop is never cut short when sentences are not empty. -/
theorem fillLoop_no_oom (c : Ctx) (hs : ∀ x, (c.w.sentence x).length ≠ 0) (mn : Int) (n : Nat) (sb : String)
    (hn : mn - (sb.length : Int) ≤ n) (s : GSt) : fillLoop c mn n sb s ≠ .oom := by
  induction n generalizing sb s with
  | zero => unfold fillLoop; rw [if_neg (by omega)]; simp
  | succ n ih =>
    unfold fillLoop
    split
    · intro h
      rcases bind_oom.1 h with h | ⟨x, s', _, h⟩
      · simp [drawAmbient] at h
      · refine ih _ ?_ s' h
        have := hs x
        rw [String.length_append]
        push_cast
        omega
    · simp

/-- `m` does not run out of fuel from states whose remaining reference budget is at most `k`, and keeps the
reference stack. -/
def Total (depth : Int) (k : Nat) {α : Type} (m : M α) : Prop :=
  ∀ s : GSt, (depth + 1 - goLen s.refs).toNat ≤ k → m s ≠ .oom ∧ ∀ a s', m s = .ok a s' → s'.refs = s.refs

theorem Total.of_evolves {depth : Int} {k : Nat} {α : Type} {m : M α} (h : Evolves m) (h' : ∀ s, m s ≠ .oom) :
    Total depth k m := fun s _ => ⟨h' s, fun a s' e => (h s a s' e).refs⟩

theorem Total.bind {depth : Int} {k : Nat} {α β : Type} {m : M α} {f : α → M β} (hm : Total depth k m)
    (hf : ∀ a, Total depth k (f a)) : Total depth k (m >>= f) := by
  intro s hs
  obtain ⟨h1, h2⟩ := hm s hs
  constructor
  · intro h
    rcases bind_oom.1 h with h | ⟨a, s', h3, h⟩
    · exact h1 h
    · exact (hf a s' (by rw [h2 a s' h3]; exact hs)).1 h
  · intro b s'' h
    obtain ⟨a, s', h3, h4⟩ := bind_ok.1 h
    rw [(hf a s' (by rw [h2 a s' h3]; exact hs)).2 b s'' h4, h2 a s' h3]

theorem total_closed (c : Ctx) (hs : ∀ x, (c.w.sentence x).length ≠ 0) (depth : Int) (k : Nat) :
    Closed c c (fun m _ => Total depth k m) where
  pure a := Total.of_evolves (Evolves.pure a) (by simp)
  bind hm hf := Total.bind hm hf
  fail e := Total.of_evolves (Evolves.fail e) (by simp)
  tick := Total.of_evolves Evolves.tick (by simp [tick])
  note d := Total.of_evolves (Evolves.note d) (by simp [note])
  seeded := Total.of_evolves (Evolves.seeded _) (by simp [drawSeeded])
  ambient := Total.of_evolves (Evolves.ambient _) (by simp [drawAmbient])
  cutoff := Total.of_evolves (Evolves.read _) (by simp [cutoff])
  minimize := Total.of_evolves (Evolves.read _) (by simp [minimize])
  budget b := Total.of_evolves (Evolves.read _) (by simp [budget])
  fill mn sb := Total.of_evolves (Evolves.fill _ _ _ _)
    (fun s => fillLoop_no_oom c hs mn _ sb (by omega) s)

/-- Fuel that suffices: the height of the tree plus the height of the referenced trees for every reference
that may still be entered. -/
theorem generate_total (c : Ctx) (hs : ∀ x, (c.w.sentence x).length ≠ 0) (H : Nat)
    (hH : ∀ doc path g, c.env doc path = some g → HeightLE H g) :
    ∀ (n h k : Nat) (g : Gen), HeightLE h g → h + k * H ≤ n → Total c.o.maximumReferenceDepth k (generate c n g) := by
  intro n
  induction n with
  | zero =>
    intro h k g hg hn
    cases h with
    | zero => exact hg.elim
    | succ h => omega
  | succ n ih =>
    intro h k g hg hn
    cases h with
    | zero => exact hg.elim
    | succ h =>
      refine genStep_rel (sub' := generate c n) (total_closed c hs _ k) (SameConf.refl c) (.of_eq rfl) g
        (fun g' hg' => ih h k g' (hg g' hg') (by omega)) (fun doc path _ => ?_)
      unfold refGenerate
      have cl := total_closed c hs c.o.maximumReferenceDepth k
      have hnote : ∀ (d : Diag) (v : JVal), Total c.o.maximumReferenceDepth k (note d >>= fun _ => (pure v : M JVal)) :=
        fun d v => Total.bind (cl.note d) (fun _ => cl.pure v)
      refine Total.bind cl.tick (fun _ => Total.bind cl.cutoff (fun b => ?_))
      split
      · exact hnote _ _
      · cases henv : c.env doc path with
        | none => exact hnote _ _
        | some target =>
          show Total _ _ (refEnter c (generate c n) doc path target)
          intro s hsk
          unfold refEnter
          split
          · exact hnote _ _ s hsk
          · rename_i hdepth
            split
            · exact hnote _ _ s hsk
            · have hk : 1 ≤ k := by omega
              obtain ⟨k', rfl⟩ : ∃ k', k = k' + 1 := ⟨k - 1, by omega⟩
              have hmul : (k' + 1) * H = k' * H + H := Nat.succ_mul k' H
              have ht := ih H k' target (hH _ _ _ henv) (by omega)
              have ht' := ht { s with refs := refKey doc path :: s.refs } (by
                simp only [goLen, List.length_cons] at hsk ⊢
                push_cast
                omega)
              constructor
              · intro e
                rcases bind_oom.1 e with e | ⟨_, s1, h1, e⟩
                · simp [pushRef] at e
                · simp [pushRef] at h1
                  subst h1
                  rcases bind_oom.1 e with e | ⟨v, s2, h2, e⟩
                  · exact ht'.1 e
                  · have hr := ht'.2 v s2 h2
                    rcases bind_oom.1 e with e | ⟨_, s3, h3, e⟩
                    · simp [popRef, hr] at e
                    · simp at e
              · intro v s' e
                obtain ⟨_, s1, h1, e⟩ := bind_ok.1 e
                simp [pushRef] at h1
                subst h1
                obtain ⟨v2, s2, h2, e⟩ := bind_ok.1 e
                have hr := ht'.2 v2 s2 h2
                obtain ⟨_, s3, h3, e⟩ := bind_ok.1 e
                simp at e
                obtain ⟨_, rfl⟩ := e
                simp [popRef, hr] at h3
                subst h3
                rfl

/-- More fuel agrees with less whenever less suffices. -/
def Agrees {α : Type} (m m' : M α) : Prop := ∀ s, m s ≠ .oom → m' s = m s

theorem agrees_refl {α : Type} (m : M α) : Agrees m m := fun _ _ => rfl

theorem agrees_bind {α β : Type} {m m' : M α} {f f' : α → M β} (hm : Agrees m m') (hf : ∀ a, Agrees (f a) (f' a)) :
    Agrees (m >>= f) (m' >>= f') := by
  intro s h
  rw [Comp.bind_apply] at h ⊢
  rw [Comp.bind_apply]
  cases hms : m s with
  | ok a s' =>
    rw [hm s (by rw [hms]; simp), hms]
    rw [hms] at h
    exact hf a s' h
  | panic e => rw [hm s (by rw [hms]; simp), hms]
  | oom => rw [hms] at h; exact (h rfl).elim

theorem agrees_closed (c : Ctx) : Closed c c Agrees where
  pure a := agrees_refl _
  bind hm hf := agrees_bind hm hf
  fail e := agrees_refl _
  tick := agrees_refl _
  note d := agrees_refl _
  seeded := agrees_refl _
  ambient := agrees_refl _
  cutoff := agrees_refl _
  minimize := agrees_refl _
  budget b := agrees_refl _
  fill mn sb := agrees_refl _

theorem generate_fuel_succ (c : Ctx) (n : Nat) (g : Gen) : Agrees (generate c n g) (generate c (n + 1) g) := by
  induction n generalizing g with
  | zero => intro s h; simp [generate] at h
  | succ n ih =>
    refine genStep_rel (agrees_closed c) (SameConf.refl c) (.of_eq rfl) g (fun g' _ => ih g') (fun doc path _ => ?_)
    have cl := agrees_closed c
    unfold refGenerate
    refine cl.bind cl.tick (fun _ => cl.bind cl.cutoff (fun b => ?_))
    split
    · exact agrees_refl _
    · cases c.env doc path with
      | none => exact agrees_refl _
      | some target =>
        show Agrees (refEnter c (generate c n) doc path target) (refEnter c (generate c (n + 1)) doc path target)
        intro s h
        unfold refEnter at h ⊢
        split
        · rfl
        · rename_i h1
          rw [if_neg h1] at h
          split
          · rfl
          · rename_i h2
            rw [if_neg h2] at h
            exact cl.bind (agrees_refl _) (fun _ => cl.bind (ih target) (fun _ => agrees_refl _)) s h

theorem generate_fuel_le (c : Ctx) {n m : Nat} (hnm : n ≤ m) (g : Gen) : Agrees (generate c n g) (generate c m g) := by
  induction hnm with
  | refl => exact agrees_refl _
  | step hle ih =>
    intro s h
    have h1 := ih s h
    rw [generate_fuel_succ c _ g s (by rw [h1]; exact h), h1]

/-- **C01.** Generation terminates: if the generator tree has height at most `h`, the referenced trees height
at most `H` (any cycles among them allowed), then `h + (MaximumReferenceDepth + 1 - stack) * H` levels of
recursion suffice from every state and in every world, and allowing more levels never changes the result.
Sentences are assumed non-empty, as faker's are. -/
theorem C01_generate_terminates (c : Ctx) (hs : ∀ x, (c.w.sentence x).length ≠ 0) (h H : Nat) (g : Gen)
    (hg : HeightLE h g) (hH : ∀ doc path g', c.env doc path = some g' → HeightLE H g') (s : GSt) :
    ∀ n, h + (c.o.maximumReferenceDepth + 1 - goLen s.refs).toNat * H ≤ n →
      generate c n g s ≠ .oom ∧
      generate c n g s = generate c (h + (c.o.maximumReferenceDepth + 1 - goLen s.refs).toNat * H) g s := by
  intro n hn
  have h1 := (generate_total c hs H hH _ h _ g hg (le_refl _) s (le_refl _)).1
  have h2 := generate_fuel_le c hn g s h1
  exact ⟨by rw [h2]; exact h1, h2⟩

/-- Any finite table of references has a common height bound. -/
theorem exists_env_height (table : List ((String × String) × Gen)) :
    ∃ H, ∀ p ∈ table, HeightLE H p.2 := by
  induction table with
  | nil => exact ⟨0, by simp⟩
  | cons p t ih =>
    obtain ⟨H, hH⟩ := ih
    obtain ⟨h, hh⟩ := exists_heightLE p.2
    refine ⟨max h H, ?_⟩
    intro q hq
    rcases List.mem_cons.1 hq with rfl | hq
    · exact hh.mono (le_max_left _ _)
    · exact (hH q hq).mono (le_max_right _ _)

/-- Lookup in a finite table of parsed references (`referenceHandler.References`). -/
def tableEnv (table : List ((String × String) × Gen)) (doc path : String) : Option Gen :=
  match table.find? (fun p => decide (p.1 = (doc, path))) with
  | some p => some p.2
  | none => none

/-- **C01 (existence form).** For every generator and every finite table of references there is a number of
levels, the same in every world with the same options, from which on `Generate` returns one fixed result. -/
theorem C01_generate_terminates_table (table : List ((String × String) × Gen)) (g : Gen) (o : Opts) :
    ∃ N, ∀ (w : World), (∀ x, (w.sentence x).length ≠ 0) → ∀ s : GSt, ∀ n, N ≤ n →
      generate ⟨w, o, tableEnv table⟩ n g s ≠ .oom ∧
      generate ⟨w, o, tableEnv table⟩ n g s = generate ⟨w, o, tableEnv table⟩ N g s := by
  obtain ⟨h, hh⟩ := exists_heightLE g
  obtain ⟨H, hH⟩ := exists_env_height table
  have henv : ∀ doc path g', tableEnv table doc path = some g' → HeightLE H g' := by
    intro doc path g' he
    unfold tableEnv at he
    split at he
    · rename_i p hp
      simp at he
      subst he
      exact hH p (List.mem_of_find?_eq_some hp)
    · cases he
  refine ⟨h + (o.maximumReferenceDepth + 1).toNat * H, ?_⟩
  intro w hw s n hn
  have hle : h + (o.maximumReferenceDepth + 1 - goLen s.refs).toNat * H ≤ h + (o.maximumReferenceDepth + 1).toNat * H := by
    apply Nat.add_le_add_left
    apply Nat.mul_le_mul_right
    unfold goLen
    omega
  have h1 := C01_generate_terminates ⟨w, o, tableEnv table⟩ hw h H g hh henv s
  have ha := h1 n (le_trans hle hn)
  have hb := h1 _ hle
  exact ⟨ha.1, by rw [ha.2, hb.2]⟩

/-- A world for examples. -/
def demoWorld : World where
  seeded := fun i => i * 7 + 3
  ambient := fun i => i * 5 + 1
  sentence := fun _ => "Lorem ipsum."
  fakerFormat := fun _ _ => "x"
  fp := FP.exact
  plat := Platform.amd64

/-- A self-referencing table: `#/$defs/node` is an object whose `next` is the same reference. -/
def demoTable : List ((String × String) × Gen) :=
  [(("doc", "#/$defs/node"), .obj { props := [("next", .ref "doc" "#/$defs/node")], required := ["next"] })]

example : ∃ N, ∀ n, N ≤ n → generate ⟨demoWorld, withGeneratorOptionsDefaults {}, tableEnv demoTable⟩ n
    (.ref "doc" "#/$defs/node") {} = generate ⟨demoWorld, withGeneratorOptionsDefaults {}, tableEnv demoTable⟩ N
    (.ref "doc" "#/$defs/node") {} := by
  obtain ⟨N, hN⟩ := C01_generate_terminates_table demoTable (.ref "doc" "#/$defs/node") (withGeneratorOptionsDefaults {})
  exact ⟨N, fun n hn => (hN demoWorld (fun x => by show ("Lorem ipsum." : String).length ≠ 0; decide) {} n hn).2⟩

/-! ## C03 and C04: assertions at every nested call -/

/-- `Generate` instrumented with an assertion about the reference stack that is checked on entry to every
nested `Generate` call and fails loudly when violated. -/
def generateAsserting (c : Ctx) (inv : List String → Bool) : Nat → Gen → M JVal
  | 0, _ => Comp.outOfFuel
  | n + 1, g => fun s =>
    if inv s.refs then genStep c (generateAsserting c inv n) g s else .panic "assertion failed"

/-- Runs agree from states satisfying the assertion, which is preserved. -/
def AgreesOn (inv : List String → Bool) {α : Type} (m m' : M α) : Prop :=
  ∀ s : GSt, inv s.refs = true → m s = m' s ∧ ∀ a s', m' s = .ok a s' → s'.refs = s.refs

theorem agreesOn_of_evolves {inv : List String → Bool} {α : Type} {m : M α} (h : Evolves m) : AgreesOn inv m m :=
  fun s _ => ⟨rfl, fun a s' e => (h s a s' e).refs⟩

theorem agreesOn_bind {inv : List String → Bool} {α β : Type} {m m' : M α} {f f' : α → M β}
    (hm : AgreesOn inv m m') (hf : ∀ a, AgreesOn inv (f a) (f' a)) : AgreesOn inv (m >>= f) (m' >>= f') := by
  intro s hs
  obtain ⟨h1, h2⟩ := hm s hs
  constructor
  · rw [Comp.bind_apply, Comp.bind_apply, h1]
    cases hms : m' s with
    | ok a s' => exact (hf a s' (by rw [h2 a s' hms]; exact hs)).1
    | panic e => rfl
    | oom => rfl
  · intro b s'' h
    obtain ⟨a, s', h3, h4⟩ := bind_ok.1 h
    rw [(hf a s' (by rw [h2 a s' h3]; exact hs)).2 b s'' h4, h2 a s' h3]

theorem agreesOn_closed (c : Ctx) (inv : List String → Bool) : Closed c c (AgreesOn inv) where
  pure a := agreesOn_of_evolves (Evolves.pure a)
  bind hm hf := agreesOn_bind hm hf
  fail e := agreesOn_of_evolves (Evolves.fail e)
  tick := agreesOn_of_evolves Evolves.tick
  note d := agreesOn_of_evolves (Evolves.note d)
  seeded := agreesOn_of_evolves (Evolves.seeded _)
  ambient := agreesOn_of_evolves (Evolves.ambient _)
  cutoff := agreesOn_of_evolves (Evolves.read _)
  minimize := agreesOn_of_evolves (Evolves.read _)
  budget b := agreesOn_of_evolves (Evolves.read _)
  fill mn sb := agreesOn_of_evolves (Evolves.fill _ _ _ _)

/-- If entering a reference (allowed by the depth and cycle checks) preserves the assertion, the assertion
never fails. -/
theorem generateAsserting_eq (c : Ctx) (inv : List String → Bool)
    (hpush : ∀ doc path refs, inv refs = true → goLen refs ≤ c.o.maximumReferenceDepth →
      (refKey doc path ∉ refs ∨ c.o.bypassCyclicReferenceCheck = true) → inv (refKey doc path :: refs) = true)
    (n : Nat) (g : Gen) : AgreesOn inv (generateAsserting c inv n g) (generate c n g) := by
  induction n generalizing g with
  | zero => intro s hs; exact ⟨rfl, by simp [generate]⟩
  | succ n ih =>
    have key : AgreesOn inv (genStep c (generateAsserting c inv n) g) (genStep c (generate c n) g) := by
      refine genStep_rel (agreesOn_closed c inv) (SameConf.refl c) (.of_eq rfl) g (fun g' _ => ih g') (fun doc path _ => ?_)
      have cl := agreesOn_closed c inv
      unfold refGenerate
      refine cl.bind cl.tick (fun _ => cl.bind cl.cutoff (fun b => ?_))
      split
      · exact cl.bind (cl.note _) (fun _ => cl.pure _)
      · cases c.env doc path with
        | none => exact cl.bind (cl.note _) (fun _ => cl.pure _)
        | some target =>
          show AgreesOn inv (refEnter c (generateAsserting c inv n) doc path target) (refEnter c (generate c n) doc path target)
          intro s hs
          unfold refEnter
          split
          · exact (cl.bind (cl.note _) (fun _ => cl.pure _)) s hs
          · rename_i hdepth
            split
            · exact (cl.bind (cl.note _) (fun _ => cl.pure _)) s hs
            · rename_i hcyc
              have hinv := hpush doc path s.refs hs (by omega) (by
                by_cases hm : refKey doc path ∈ s.refs
                · right
                  cases hb : c.o.bypassCyclicReferenceCheck with
                  | true => rfl
                  | false => exact (hcyc ⟨hm, hb⟩).elim
                · exact Or.inl hm)
              obtain ⟨ih1, ih2⟩ := ih target { s with refs := refKey doc path :: s.refs } hinv
              constructor
              · show (andThen (pushRef doc path) _) s = (andThen (pushRef doc path) _) s
                simp only [andThen, pushRef, modS]
                rw [Comp.bind_apply, Comp.bind_apply, ih1]
              · intro v s' e
                obtain ⟨_, s1, h1, e⟩ := bind_ok.1 e
                simp [pushRef] at h1
                subst h1
                obtain ⟨v2, s2, h2, e⟩ := bind_ok.1 e
                have hr := ih2 v2 s2 h2
                obtain ⟨_, s3, h3, e⟩ := bind_ok.1 e
                simp at e
                obtain ⟨_, rfl⟩ := e
                simp [popRef, hr] at h3
                subst h3
                rfl
    intro s hs
    obtain ⟨h1, h2⟩ := key s hs
    refine ⟨?_, h2⟩
    show (if inv s.refs then _ else _) = _
    rw [if_pos hs]
    exact h1

/-- **C03 (balanced).** A successful `Generate` leaves the reference stack as it was. -/
theorem C03_reference_stack_balanced (c : Ctx) (n : Nat) (g : Gen) (s : GSt) (v : JVal) (s' : GSt)
    (h : generate c n g s = .ok v s') : s'.refs = s.refs :=
  (generate_evolves c n g s v s' h).refs

/-- **C03 (bounded).** Starting with at most `max 0 (MaximumReferenceDepth + 1)` references on the stack, an
assertion at every nested `Generate` call that the stack never exceeds this bound does not fail: checking it
changes nothing. -/
theorem C03_reference_stack_bounded (c : Ctx) (n : Nat) (g : Gen) (s : GSt)
    (hs : goLen s.refs ≤ max 0 (c.o.maximumReferenceDepth + 1)) :
    generateAsserting c (fun refs => decide (goLen refs ≤ max 0 (c.o.maximumReferenceDepth + 1))) n g s
      = generate c n g s := by
  refine (generateAsserting_eq c _ ?_ n g s (by simpa using hs)).1
  intro doc path refs _ hd _
  rw [decide_eq_true_eq]
  simp only [goLen, List.length_cons] at hd ⊢
  push_cast
  omega

/-- **C04 (never re-entered).** With the cycle check on, an assertion at every nested `Generate` call that no
reference occurs twice among those being resolved does not fail. -/
theorem C04_no_reference_reentered (c : Ctx) (hb : c.o.bypassCyclicReferenceCheck = false) (n : Nat) (g : Gen)
    (s : GSt) (hs : s.refs.Nodup) :
    generateAsserting c (fun refs => decide refs.Nodup) n g s = generate c n g s := by
  refine (generateAsserting_eq c _ ?_ n g s (by simpa using hs)).1
  intro doc path refs hn _ hm
  simp only [decide_eq_true_eq] at hn ⊢
  rcases hm with hm | hm
  · exact List.nodup_cons.2 ⟨hm, hn⟩
  · rw [hb] at hm; cases hm

/-- **C04 (the cut).** A reference that is already being resolved (within the depth limit and before the
cutoff) generates the diagnostic string naming the chain of references, without entering it: the result does
not depend on the table entry. -/
theorem C04_cyclic_reference_cut (c : Ctx) (hb : c.o.bypassCyclicReferenceCheck = false) (n : Nat)
    (doc path : String) (target : Gen) (henv : c.env doc path = some target) (s : GSt)
    (hmem : refKey doc path ∈ s.refs) (hdepth : goLen s.refs ≤ c.o.maximumReferenceDepth)
    (hcut : shouldCutoff c.o (s.complexity + 1) = false) :
    ∃ s', generate c (n + 1) (.ref doc path) s =
      .ok (.str ("Cyclic reference found: " ++ String.intercalate " -> \n" s.refs.reverse ++ " \n " ++ path ++ " ")) s'
      ∧ s'.refs = s.refs := by
  refine ⟨{ s with complexity := s.complexity + 1, diags := Diag.cyclic :: s.diags }, ?_, rfl⟩
  show refGenerate c (generate c n) doc path s = _
  simp only [refGenerate, Comp.bind_apply, tick, modS_apply, cutoff, hcut, henv]
  rw [if_neg (by simp)]
  unfold refEnter
  rw [if_neg (by simp only; omega), if_pos ⟨hmem, hb⟩]
  simp only [Comp.bind_apply, note, modS_apply, Comp.pure_apply, formatRefs]
  rfl

/-! ## C05 -/

/-- **C05 (monotone).** The complexity counter never decreases. -/
theorem C05_complexity_monotone (c : Ctx) (n : Nat) (g : Gen) (s : GSt) (v : JVal) (s' : GSt)
    (h : generate c n g s = .ok v s') : s.complexity ≤ s'.complexity :=
  (generate_evolves c n g s v s' h).complexity

/-- The generators that check the cutoff on entry. -/
def ChecksCutoff : Gen → Prop
  | .obj _ => True
  | .arr _ => True
  | .comb _ => True
  | .ref _ _ => True
  | _ => False

/-- **C05 (cutoff).** Once the step counter has reached a positive `CutoffGenerationSteps`, objects, arrays,
references and combinations return null at once; no random number is drawn and nothing else is generated. -/
theorem C05_cutoff_immediate (c : Ctx) (n : Nat) (g : Gen) (hg : ChecksCutoff g) (s : GSt)
    (hpos : 0 < c.o.cutoffGenerationSteps) (hcut : c.o.cutoffGenerationSteps ≤ s.complexity) :
    ∃ s', generate c (n + 1) g s = .ok .null s' ∧ s'.spos = s.spos ∧ s'.apos = s.apos ∧
      s'.complexity = s.complexity + 1 ∧ s'.refs = s.refs := by
  have hc : shouldCutoff c.o (s.complexity + 1) = true := by
    simp [shouldCutoff]; omega
  refine ⟨{ s with complexity := s.complexity + 1, diags := Diag.cutoff :: s.diags }, ?_, rfl, rfl, rfl, rfl⟩
  cases g with
  | obj g => simp [generate, genStep, objectGenerate, Comp.bind_apply, tick, cutoff, hc, note]
  | arr g => simp [generate, genStep, arrayGenerate, Comp.bind_apply, tick, cutoff, hc, note]
  | comb g => simp [generate, genStep, combGenerate, Comp.bind_apply, tick, cutoff, hc, note]
  | ref d p => simp [generate, genStep, refGenerate, Comp.bind_apply, tick, cutoff, hc, note]
  | _ => exact hg.elim

/-- The defaults satisfy the hypotheses: the cutoff is 2000 steps. -/
example : 0 < (withGeneratorOptionsDefaults {}).cutoffGenerationSteps := by decide
example : ChecksCutoff (.obj { required := ["a"] }) := trivial

end Chaff
