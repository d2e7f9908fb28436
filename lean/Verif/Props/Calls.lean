import Verif.Spec.Calls
import Verif.Props.Seed
import Verif.Props.Valid
/-!
# C83: a parsed schema and an options record serve several calls

`Generate` may be called again, with the same generator and the same options or with others.  Each call does what the first
call does with what is left of the random sources; nothing else is carried over.
-/

namespace Chaff
open Comp

/-! ## A used source is as good as a new one -/

/-- The world after `a` and `b` numbers have been drawn. -/
def World.skip (w : World) (a b : Nat) : World :=
  { w with seeded := fun i => w.seeded (i + a), ambient := fun i => w.ambient (i + b) }

/-- States that differ by `a` and `b` in the positions only. -/
def Later (a b : Nat) (s t : GSt) : Prop :=
  s.complexity = t.complexity ∧ s.refs = t.refs ∧ s.spos = t.spos + a ∧ s.apos = t.apos + b ∧ s.diags = t.diags

/-- Outcomes that agree except for the positions. -/
def LaterRes (a b : Nat) {α : Type} : Res GSt α → Res GSt α → Prop
  | .ok x s, .ok y t => x = y ∧ Later a b s t
  | .panic e, .panic f => e = f
  | .oom, .oom => True
  | _, _ => False

/-- Two computations agree from all states that differ in the positions only. -/
def LaterAgree (a b : Nat) {α : Type} (m m' : M α) : Prop := ∀ s t, Later a b s t → LaterRes a b (m s) (m' t)

theorem LaterAgree.bind {a b : Nat} {α β : Type} {m m' : M α} {f f' : α → M β} (hm : LaterAgree a b m m')
    (hf : ∀ x, LaterAgree a b (f x) (f' x)) : LaterAgree a b (m >>= f) (m' >>= f') := by
  intro s t hst
  have h := hm s t hst
  rw [bind_apply, bind_apply]
  cases h1 : m s <;> cases h2 : m' t <;> rw [h1, h2] at h <;> simp only [LaterRes] at h ⊢
  · obtain ⟨rfl, h⟩ := h
    exact hf _ _ _ h
  · exact h

variable {a b : Nat} {w : World} {o : Opts} {env : String → String → Option Gen}

theorem later_closedS : ClosedS ⟨w, o, env⟩ ⟨w.skip a b, o, env⟩ (LaterAgree a b) where
  pure x := fun s t h => ⟨rfl, h⟩
  bind := LaterAgree.bind
  fail e := fun s t h => rfl
  tick := fun s t h => ⟨rfl, by obtain ⟨h1, h⟩ := h; exact ⟨by simp [h1], h⟩⟩
  note d := fun s t h => ⟨rfl, by obtain ⟨h1, h2, h3, h4, h5⟩ := h; exact ⟨h1, h2, h3, h4, by simp [h5]⟩⟩
  seeded := fun s t h => by
    obtain ⟨h1, h2, h3, h4, h5⟩ := h
    refine ⟨?_, h1, h2, ?_, h4, h5⟩
    · show w.seeded s.spos = w.seeded (t.spos + a)
      rw [h3]
    · show s.spos + 1 = t.spos + 1 + a
      omega
  cutoff := fun s t h => ⟨by rw [h.1], h⟩
  minimize := fun s t h => ⟨by rw [h.1], h⟩
  budget k := fun s t h => ⟨by rw [h.1]; rfl, h⟩

theorem later_ambient : LaterAgree a b (drawAmbient w) (drawAmbient (w.skip a b)) := fun s t h => by
  obtain ⟨h1, h2, h3, h4, h5⟩ := h
  refine ⟨?_, h1, h2, h3, ?_, h5⟩
  · show w.ambient s.apos = w.ambient (t.apos + b)
    rw [h4]
  · show s.apos + 1 = t.apos + 1 + b
    omega

theorem later_closed : Closed ⟨w, o, env⟩ ⟨w.skip a b, o, env⟩ (LaterAgree a b) where
  toClosedS := later_closedS
  ambient := later_ambient
  fill mn sb := by
    generalize mn.toNat = n
    induction n generalizing sb with
    | zero =>
      unfold fillLoop
      exact Closed.ite (P := LaterAgree a b) Iff.rfl (fun _ _ _ => trivial) (later_closedS.pure (c := ⟨w, o, env⟩) (c' := ⟨w.skip a b, o, env⟩) _)
    | succ n ih =>
      unfold fillLoop
      exact Closed.ite (P := LaterAgree a b) Iff.rfl (LaterAgree.bind later_ambient fun _ => ih _)
        (fun _ _ h => ⟨rfl, h⟩)

theorem later_ref {sub sub' : Gen → M JVal} (hsub : ∀ g, LaterAgree a b (sub g) (sub' g)) (doc path : String) :
    LaterAgree a b (refGenerate ⟨w, o, env⟩ sub doc path) (refGenerate ⟨w.skip a b, o, env⟩ sub' doc path) := by
  have h := later_closedS (a := a) (b := b) (w := w) (o := o) (env := env)
  unfold refGenerate
  refine h.bind h.tick (fun _ => h.bind h.cutoff (fun x => Closed.ite (P := LaterAgree a b) Iff.rfl
    (h.bind (h.note _) (fun _ => h.pure _)) ?_))
  dsimp only
  cases env doc path with
  | none => exact h.bind (h.note _) (fun _ => h.pure _)
  | some target =>
    intro s t hst
    show LaterRes a b (refEnter _ sub doc path target s) (refEnter _ sub' doc path target t)
    unfold refEnter
    have h2 := hst.2.1
    rw [← h2]
    dsimp only
    by_cases hd : goLen s.refs > o.maximumReferenceDepth
    · rw [if_pos hd, if_pos hd]
      exact h.bind (h.note _) (fun _ => h.pure _) s t hst
    · rw [if_neg hd, if_neg hd]
      by_cases hcy : refKey doc path ∈ s.refs ∧ o.bypassCyclicReferenceCheck = false
      · rw [if_pos hcy, if_pos hcy]
        exact h.bind (h.note _) (fun _ => h.pure _) s t hst
      · rw [if_neg hcy, if_neg hcy]
        refine LaterAgree.bind (m := pushRef doc path) ?_ (fun _ => LaterAgree.bind (hsub target)
          (fun v => LaterAgree.bind ?_ (fun _ => h.pure _))) s t hst
        · intro s t hst
          obtain ⟨h1, h2, h3⟩ := hst
          exact ⟨rfl, h1, by simp [h2], h3⟩
        · intro s t hst
          obtain ⟨h1, h2, h3⟩ := hst
          unfold popRef
          rw [← h2]
          cases s.refs with
          | nil => rfl
          | cons x r => exact ⟨rfl, h1, rfl, h3⟩

theorem later_generate (n : Nat) (g : Gen) :
    LaterAgree a b (generate ⟨w, o, env⟩ n g) (generate ⟨w.skip a b, o, env⟩ n g) := by
  induction n generalizing g with
  | zero => intro s t _; trivial
  | succ n ih =>
    exact genStep_rel later_closed ⟨⟨.of_eq rfl, rfl, rfl⟩, rfl, rfl⟩ (.of_eq rfl) g (fun g' _ => ih g') fun doc path _ => later_ref ih doc path

theorem genCall_at (w : World) (fuel : Nat) (k : GenCall) (u : Used) (hk : k.source = none) :
    SameEnd (genCall w fuel k u) (rootGenerate { w with
      seeded := fun i => w.seeded (i + u.seeded), ambient := fun i => w.ambient (i + u.ambient) } k.o k.env fuel k.g) := by
  have h := later_generate (a := u.seeded) (b := u.ambient) (w := w) (o := withGeneratorOptionsDefaults k.o) (env := k.env)
    fuel k.g { complexity := 0, refs := [], spos := u.seeded, apos := u.ambient } {}
    ⟨rfl, rfl, (Nat.zero_add _).symm, (Nat.zero_add _).symm, rfl⟩
  unfold genCall rootGenerate
  rw [hk]
  dsimp only
  revert h
  unfold World.skip
  cases generate ⟨w, withGeneratorOptionsDefaults k.o, k.env⟩ fuel k.g
      { complexity := 0, refs := [], spos := u.seeded, apos := u.ambient } <;>
    cases generate ⟨{ w with seeded := fun i => w.seeded (i + u.seeded), ambient := fun i => w.ambient (i + u.ambient) },
      withGeneratorOptionsDefaults k.o, k.env⟩ fuel k.g {} <;> intro h
  case ok.ok => exact ⟨h.1, h.2.2.2.2.2, h.2.1, h.2.2.1⟩
  all_goals exact h

theorem genCall_later (w : World) (fuel : Nat) (k : GenCall) (u : Used) :
    ∃ w', Continues (sourceOf w k) w' ∧ SameEnd (genCall w fuel k u) (rootGenerate w' k.o k.env fuel k.g) := by
  have key : ∀ (w : World) a b, SameEnd
      (generate ⟨w, withGeneratorOptionsDefaults k.o, k.env⟩ fuel k.g { complexity := 0, refs := [], spos := a, apos := b })
      (rootGenerate (w.skip a b) k.o k.env fuel k.g) := by
    intro w a b
    have h := later_generate (a := a) (b := b) (w := w) (o := withGeneratorOptionsDefaults k.o) (env := k.env) fuel k.g
      { complexity := 0, refs := [], spos := a, apos := b } {} ⟨rfl, rfl, (Nat.zero_add a).symm, (Nat.zero_add b).symm, rfl⟩
    unfold rootGenerate
    revert h
    cases generate ⟨w, withGeneratorOptionsDefaults k.o, k.env⟩ fuel k.g { complexity := 0, refs := [], spos := a, apos := b } <;>
      cases generate ⟨w.skip a b, withGeneratorOptionsDefaults k.o, k.env⟩ fuel k.g {} <;> intro h
    case ok.ok => exact ⟨h.1, h.2.2.2.2.2, h.2.1, h.2.2.1⟩
    all_goals exact h
  unfold genCall sourceOf
  cases k.source with
  | none => exact ⟨_, ⟨u.seeded, u.ambient, rfl⟩, key w _ _⟩
  | some f => exact ⟨_, ⟨0, u.ambient, rfl⟩, key _ _ _⟩

/-- **C83.** In every sequence of calls, with one generator or several and with one options record or several, each call
ends as the first call would with what is left of the random sources: no steps, references or diagnostics are carried
over from one call to the next. -/
theorem C83_calls_start_afresh (w : World) (fuel : Nat) (calls : List GenCall) (u : Used) (i : Nat) (r : Res GSt JVal)
    (h : (genRun w fuel calls u)[i]? = some r) :
    ∃ k w', calls[i]? = some k ∧ Continues (sourceOf w k) w' ∧ SameEnd r (rootGenerate w' k.o k.env fuel k.g) := by
  induction calls generalizing u i with
  | nil => simp [genRun] at h
  | cons k t ih =>
    obtain ⟨w', h1, h2⟩ := genCall_later w fuel k u
    unfold genRun at h
    cases hr : genCall w fuel k u with
    | ok v s =>
      rw [hr] at h h2
      cases i with
      | zero =>
        cases h
        exact ⟨k, w', rfl, h1, h2⟩
      | succ i => exact ih _ i h
    | panic e =>
      rw [hr] at h h2
      cases i with
      | zero => cases h; exact ⟨k, w', rfl, h1, h2⟩
      | succ i => simp at h
    | oom =>
      rw [hr] at h h2
      cases i with
      | zero => cases h; exact ⟨k, w', rfl, h1, h2⟩
      | succ i => simp at h

/-- **C83.** With one random source, a call continues where the call before it stopped: no numbers are drawn twice and none
are skipped. -/
theorem C83_source_continues (w : World) (fuel : Nat) (calls : List GenCall) (hown : ∀ k ∈ calls, k.source = none) (u : Used)
    (i : Nat) (v : JVal) (s : GSt) (h : (genRun w fuel calls u)[i]? = some (.ok v s)) (r : Res GSt JVal)
    (hr : (genRun w fuel calls u)[i + 1]? = some r) (k : GenCall) (hk : calls[i + 1]? = some k) :
    SameEnd r (rootGenerate { w with
      seeded := fun j => w.seeded (j + s.spos), ambient := fun j => w.ambient (j + s.apos) } k.o k.env fuel k.g) := by
  induction calls generalizing u i with
  | nil => simp [genRun] at h
  | cons k0 t ih =>
    unfold genRun at h hr
    cases hc : genCall w fuel k0 u with
    | ok v0 s0 =>
      rw [hc] at h hr
      cases i with
      | zero =>
        cases h
        cases t with
        | nil => cases hk
        | cons k1 t1 =>
          cases hk
          have hu : usedAfter k0 u s = ⟨s.spos, s.apos⟩ := by
            unfold usedAfter
            rw [hown k0 (List.mem_cons_self ..)]
          dsimp only at hr
          rw [hu] at hr
          have hat := genCall_at w fuel k ⟨s.spos, s.apos⟩ (hown k (by simp))
          simp only [List.getElem?_cons_succ] at hr
          unfold genRun at hr
          cases hc1 : genCall w fuel k ⟨s.spos, s.apos⟩ <;> rw [hc1] at hr hat <;> cases hr <;> exact hat
      | succ i => exact ih (fun x hx => hown x (List.mem_cons_of_mem _ hx)) _ i h hr hk
    | panic e => rw [hc] at hr; simp at hr
    | oom => rw [hc] at hr; simp at hr

/-- **C83.** All calls of a sequence are made, unless one of them panics. -/
theorem C83_all_calls_made (w : World) (fuel : Nat) (calls : List GenCall) (u : Used)
    (h : ∀ r ∈ genRun w fuel calls u, ∃ v s, r = .ok v s) : (genRun w fuel calls u).length = calls.length := by
  induction calls generalizing u with
  | nil => rfl
  | cons k t ih =>
    unfold genRun at h ⊢
    cases hr : genCall w fuel k u with
    | ok v s =>
      rw [hr] at h
      simp only [List.length_cons]
      rw [ih _ fun r hm => h r (List.mem_cons_of_mem _ hm)]
    | panic e => rw [hr] at h; obtain ⟨_, _, h⟩ := h _ (List.mem_cons_self ..); cases h
    | oom => rw [hr] at h; obtain ⟨_, _, h⟩ := h _ (List.mem_cons_self ..); cases h

/-- **C83.** Of the values that a sequence of calls generates, those from a schema of C56 are valid if they were generated
without a diagnostic, whatever was generated before. -/
theorem C83_every_value_valid (c : PEnv) (fuel gfuel : Nat) (schema : JVal) (root : SchemaNode)
    (hroot : decodeNode schema = some root) (w : World) (hfp : w.fp = c.fp) (hpl : w.plat = c.plat)
    (g : Gen) (s : PSt) (hparse : parseSchema c fuel schema = .done (.ok (g, none) s)) (herr : s.errors = [])
    (calls : List GenCall) (u : Used) (i : Nat) (k : GenCall) (hk : calls[i]? = some k) (hkg : k.g = g) (hke : k.env = refEnv s)
    (hsup : ∀ d ts m, Inside root d ts m → PlaceOk c (withGeneratorOptionsDefaults k.o) root d ts m)
    (v : JVal) (st : GSt) (hgen : (genRun w gfuel calls u)[i]? = some (.ok v st)) (hquiet : st.diags = []) :
    Valid (patternMeaning c) root root v := by
  obtain ⟨k', w', h1, h2, h3⟩ := C83_calls_start_afresh w gfuel calls u i _ hgen
  rw [hk] at h1
  cases h1
  rw [hkg, hke] at h3
  cases hr : rootGenerate w' k.o (refEnv s) gfuel g with
  | ok v' st' =>
    rw [hr] at h3
    obtain ⟨rfl, h4, _⟩ := h3
    obtain ⟨a, b, rfl⟩ := h2
    refine C56_generated_values_are_valid_partial c fuel gfuel schema root hroot _ k.o ?_ ?_ hsup g s hparse herr v st' hr
      (by rw [← h4, hquiet])
    · unfold sourceOf
      cases k.source <;> exact hfp
    · unfold sourceOf
      cases k.source <;> exact hpl
  | panic e => rw [hr] at h3; exact h3.elim
  | oom => rw [hr] at h3; exact h3.elim

/-- **C83.** The same calls with equally seeded sources return the same values, when no call needs the global source
(C32). -/
theorem C83_same_seed_same_values (w w' : World) (hs : w.seeded = w'.seeded) (hfp : w.fp = w'.fp) (hpl : w.plat = w'.plat)
    (fuel : Nat) (calls : List GenCall) (hseed : ∀ k ∈ calls, SeedOnly k.g ∧ ∀ d p g, k.env d p = some g → SeedOnly g)
    (u u' : Used) (hu : u.seeded = u'.seeded) :
    List.Forall₂ SameEnd (genRun w fuel calls u) (genRun w' fuel calls u') := by
  induction calls generalizing u u' with
  | nil => exact .nil
  | cons k t ih =>
    obtain ⟨hg, henv⟩ := hseed k (List.mem_cons_self ..)
    have hcall : SeedRes (genCall w fuel k u) (genCall w' fuel k u') := by
      unfold genCall
      cases k.source with
      | none =>
        exact seedAgree_generate (c := ⟨w, withGeneratorOptionsDefaults k.o, k.env⟩)
          (c' := ⟨w', withGeneratorOptionsDefaults k.o, k.env⟩) hs ⟨.of_eq rfl, hfp, hpl⟩ rfl rfl henv fuel k.g hg _ _
          ⟨rfl, rfl, hu, rfl⟩
      | some f =>
        exact seedAgree_generate (c := ⟨{ w with seeded := f }, withGeneratorOptionsDefaults k.o, k.env⟩)
          (c' := ⟨{ w' with seeded := f }, withGeneratorOptionsDefaults k.o, k.env⟩) rfl ⟨.of_eq rfl, hfp, hpl⟩ rfl rfl henv fuel k.g hg _ _
          ⟨rfl, rfl, rfl, rfl⟩
    unfold genRun
    revert hcall
    cases h1 : genCall w fuel k u <;> cases h2 : genCall w' fuel k u' <;> intro hcall
    case ok.ok v s v' s' =>
      obtain ⟨rfl, h3⟩ := hcall
      refine .cons ⟨rfl, h3.2.2.2, h3.1, h3.2.1⟩ (ih (fun x hx => hseed x (List.mem_cons_of_mem _ hx)) _ _ ?_)
      unfold usedAfter
      cases k.source with
      | none => exact h3.2.2.1
      | some f => exact hu
    case panic.panic => exact .cons hcall .nil
    case oom.oom => exact .cons trivial .nil
    all_goals exact hcall.elim

/-! ## A sequence of calls -/

/-- Three calls: with a tight limit on the steps, with the same record again, and with a record that brings its own
source. -/
def threeCalls : List GenCall :=
  let g : Gen := .arr { item := some .null, minItems := 3, maxItems := 5 }
  let o : Opts := { maximumGenerationSteps := 3, cutoffGenerationSteps := 4 }
  [{ o := o, g := g }, { o := o, g := g }, { g := g, source := some fun _ => 4 }]

/-- No call is cut off although the steps of the first two add up to more than the limit. -/
example : (genRun demoWorld 5 threeCalls {}).map (fun r => match r with
    | .ok (.arr l) s => (l.length, s.complexity, s.diags.length)
    | _ => (0, 0, 0)) = [(3, 4, 0), (3, 4, 0), (4, 5, 0)] := by decide +kernel

/-- The generators of these calls need the seeded source only. -/
example : ∀ k ∈ threeCalls, SeedOnly k.g ∧ ∀ d p g, k.env d p = some g → SeedOnly g := by
  intro k hk
  simp only [threeCalls, List.mem_cons, List.mem_nil_iff, or_false] at hk
  rcases hk with rfl | rfl | rfl <;> exact ⟨.arr _ (by simp) (by simp) .null, nofun⟩

end Chaff
