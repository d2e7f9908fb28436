import Verif.Spec.Types
import Verif.Props.Not
import Verif.Props.Object
/-!
# C19, C23, C24: enum and const values, string lengths, declared types

Each theorem starts from a successful parse of a schema without combinators and speaks about every value that the
resulting generator can produce, from any state.
-/

namespace Chaff
open Comp

/-! ## Dispatch of a schema without combinators -/

theorem plain_step {c : PEnv} {r : PRec} {n : SchemaNode} (h : Plain n) :
    parseSchemaStep c r n =
      match checkUnsupported n with
      | some e => nullErr e
      | none => match n.enum with
        | some (v :: l) => parseEnum c n (v :: l)
        | _ => match n.const with
          | some v => parseConst c n v
          | none => parseByType c r n := by
  unfold parseSchemaStep
  cases checkUnsupported n with
  | some e => rfl
  | none =>
    simp only [h.ref, h.allOf, h.oneOf, h.anyOf, h.not, h.mergedNot, h.ifN, h.mergedIf, Option.isSome_none,
      Bool.false_eq_true, or_self, if_false, List.length_nil, lt_irrefl, ne_eq, not_true_eq_false]
    rcases n.enum with _ | _ | ⟨_, _⟩
    · cases n.const <;> rfl
    · cases n.const <;> rfl
    · rfl

theorem nullErr_ok {e : Err} {s s' : PSt} {g : Gen} : ¬ nullErr e s = .ok (g, none) s' := by
  intro h
  unfold nullErr at h
  have := (pure_ok.1 h).1
  cases this

theorem okGen_ok {a g : Gen} {s s' : PSt} (h : okGen a s = .ok (g, none) s') : a = g ∧ s = s' := by
  unfold okGen at h
  obtain ⟨h1, h2⟩ := pure_ok.1 h
  cases h1
  exact ⟨rfl, h2⟩

theorem generate_succ {ctx : Ctx} {j : Nat} {g : Gen} {st st' : GSt} {v : JVal} (h : generate ctx j g st = .ok v st') :
    ∃ i, genStep ctx (generate ctx i) g st = .ok v st' := by
  cases j with
  | zero => unfold generate at h; simp at h
  | succ i => exact ⟨i, h⟩

/-! ## C19: enum and const -/

/-- The name under which the parser registers the validator of the current position. -/
def positionKey (s : PSt) (field : String) : String :=
  resourceKey (if s.resolvingId ≠ "" then s.resolvingId else s.parsingId) s.path field

/-- `f` is what the validator compiler returns for the current position, and if no other position used the same name
before, the compiler was given this very schema under that name. -/
structure OwnValidator (c : PEnv) (n : SchemaNode) (field : String) (s s' : PSt) (f : JVal → Bool) : Prop where
  compiled : c.compile s'.resources (positionKey s field) = some f
  own : lookupKV s.resources (positionKey s field) = none →
    lookupKV s'.resources (positionKey s field) =
      some (replaceRefs (if s.resolvingId ≠ "" then s.resolvingId else s.parsingId) (encodeNode n))

theorem lookupKV_append_new {β : Type} {l : List (String × β)} {k : String} {v : β} (h : lookupKV l k = none) :
    lookupKV (l ++ [(k, v)]) k = some v := by
  induction l with
  | nil => simp [lookupKV]
  | cons p t ih =>
    obtain ⟨a, b⟩ := p
    simp only [lookupKV, List.cons_append] at h ⊢
    split at h
    · cases h
    · rename_i hne
      rw [if_neg hne]
      exact ih h

theorem validatorFor_own {c : PEnv} {n : SchemaNode} {field : String} {s s' : PSt} {f : JVal → Bool}
    (h : validatorFor c n field s = .ok (some f) s') : OwnValidator c n field s s' f := by
  unfold validatorFor at h
  dsimp only at h
  injection h with h1 h2
  subst h2
  refine ⟨h1, ?_⟩
  intro hn
  have hn' : lookupKV s.resources (resourceKey (if s.resolvingId ≠ "" then s.resolvingId else s.parsingId) s.path field)
    = none := hn
  dsimp only
  rw [hn']
  exact lookupKV_append_new hn'

/-- Some stream of random numbers makes the generator return this value, whatever the state. -/
def Reachable (g : Gen) (v : JVal) : Prop :=
  ∀ ctx : Ctx, ∃ draws : Nat → Nat, ∀ (j : Nat) (st : GSt),
    ∃ st', generate { ctx with w := { ctx.w with seeded := draws } } (j + 1) g st = .ok v st'

theorem reachable_const (v : JVal) : Reachable (.const v) v :=
  fun _ => ⟨fun _ => 0, fun _ st => ⟨st, rfl⟩⟩

theorem reachable_enum {l : List JVal} {v : JVal} (hv : v ∈ l) : Reachable (.enum l) v := by
  intro ctx
  obtain ⟨i, hi, hiv⟩ := List.mem_iff_getElem.1 hv
  refine ⟨fun _ => i, fun j st => ?_⟩
  have hpos : ¬ goLen l ≤ 0 := by unfold goLen; omega
  have hmod : (i : Int) % goLen l = i := Int.emod_eq_of_lt (by omega) (by unfold goLen; omega)
  refine ⟨{ st with complexity := st.complexity + 1, spos := st.spos + 1 }, ?_⟩
  show (do tick; choice { ctx.w with seeded := fun _ => i } l : M JVal) st = _
  unfold choice intn intnWith tick indexAt
  rw [if_neg hpos]
  simp only [bind_apply, modS_apply, drawSeeded, pure_apply, hmod]
  have : l[((i : Nat) : Int).toNat]? = some v := by
    rw [Int.toNat_natCast, List.getElem?_eq_getElem hi, hiv]
  rw [if_neg (by omega), this]
  rfl

/-- **C19.** When a schema with a non-empty `enum` is accepted, the values it generates are exactly the listed values
that the validator of the whole schema accepts: nothing else is ever generated, and each of them is generated for some
random stream. -/
theorem C19_enum (c : PEnv) (k : Nat) (n : SchemaNode) (values : List JVal) (s s' : PSt) (g : Gen) (hp : Plain n)
    (hne : values ≠ []) (he : n.enum = some values) (h : (parseRec c (k + 1)).schema n s = .ok (g, none) s') :
    ∃ f, OwnValidator c n "enum" s s' f ∧
      (∀ ctx j st v st', generate ctx j g st = .ok v st' → v ∈ values ∧ f v = true) ∧
      (∀ v ∈ values, f v = true → Reachable g v) := by
  change parseSchemaStep c (parseRec c k) n s = _ at h
  rw [plain_step hp] at h
  cases hu : checkUnsupported n with
  | some e => rw [hu] at h; exact absurd h nullErr_ok
  | none =>
    rw [hu, he] at h
    cases values with
    | nil => exact absurd rfl hne
    | cons a l =>
      dsimp only at h
      unfold parseEnum at h
      obtain ⟨o, s1, h1, h2⟩ := bind_ok.1 h
      cases o with
      | none => exact absurd h2 nullErr_ok
      | some f =>
        dsimp only at h2
        have hmem : ∀ v, v ∈ (a :: l).filter f ↔ v ∈ a :: l ∧ f v = true := fun v => List.mem_filter
        cases hl : (a :: l).filter f with
        | nil => rw [hl] at h2; exact absurd h2 nullErr_ok
        | cons x t =>
          rw [hl] at h2 hmem
          cases t with
          | nil =>
            obtain ⟨rfl, rfl⟩ := okGen_ok h2
            refine ⟨f, validatorFor_own h1, ?_, ?_⟩
            · intro ctx j st v st' hg
              obtain ⟨i, hg⟩ := generate_succ hg
              obtain ⟨rfl, _⟩ := pure_ok.1 hg
              exact (hmem _).1 List.mem_cons_self
            · intro v hv hf
              have := (hmem v).2 ⟨hv, hf⟩
              rw [List.mem_singleton] at this
              subst this
              exact reachable_const _
          | cons y t =>
            obtain ⟨rfl, rfl⟩ := okGen_ok h2
            refine ⟨f, validatorFor_own h1, ?_, ?_⟩
            · intro ctx j st v st' hg
              obtain ⟨i, hg⟩ := generate_succ hg
              unfold genStep at hg
              obtain ⟨_, s2, _, hg⟩ := bind_ok.1 hg
              exact (hmem v).1 (choice_post _ _ _ _ _ hg)
            · intro v hv hf
              exact reachable_enum ((hmem v).2 ⟨hv, hf⟩)

/-- **C19.** When a schema with `const` and without `enum` is accepted, its validator accepts the constant and the
constant is all it generates. -/
theorem C19_const (c : PEnv) (k : Nat) (n : SchemaNode) (value : JVal) (s s' : PSt) (g : Gen) (hp : Plain n)
    (he : n.enum = none) (hc : n.const = some value) (h : (parseRec c (k + 1)).schema n s = .ok (g, none) s') :
    ∃ f, OwnValidator c n "const" s s' f ∧ f value = true ∧ Reachable g value ∧
      ∀ ctx j st v st', generate ctx j g st = .ok v st' → v = value := by
  change parseSchemaStep c (parseRec c k) n s = _ at h
  rw [plain_step hp] at h
  cases hu : checkUnsupported n with
  | some e => rw [hu] at h; exact absurd h nullErr_ok
  | none =>
    rw [hu, he, hc] at h
    dsimp only at h
    unfold parseConst at h
    obtain ⟨o, s1, h1, h2⟩ := bind_ok.1 h
    cases o with
    | none => exact absurd h2 nullErr_ok
    | some f =>
      dsimp only at h2
      split at h2
      · rename_i hf
        obtain ⟨rfl, rfl⟩ := okGen_ok h2
        refine ⟨f, validatorFor_own h1, hf, reachable_const _, ?_⟩
        intro ctx j st v st' hg
        obtain ⟨i, hg⟩ := generate_succ hg
        exact (pure_ok.1 hg).1.symm
      · exact absurd h2 nullErr_ok

/-- **C19.** A listed value set without a single acceptable value is an error, not a generator of something else. -/
theorem C19_unsatisfiable_reported (c : PEnv) (k : Nat) (n : SchemaNode) (values : List JVal) (s s' : PSt)
    (r : Gen × Option Err) (hp : Plain n) (hne : values ≠ []) (he : n.enum = some values)
    (h : (parseRec c (k + 1)).schema n s = .ok r s')
    (hv : ∀ f, c.compile s'.resources (positionKey s "enum") = some f → ∀ v ∈ values, f v = false) : r.2 ≠ none := by
  intro hr
  obtain ⟨g, e⟩ := r
  dsimp only at hr
  subst hr
  obtain ⟨f, ho, hmem, _⟩ := C19_enum c k n values s s' g hp hne he h
  have hno := hv f ho.compiled
  change parseSchemaStep c (parseRec c k) n s = _ at h
  rw [plain_step hp] at h
  cases hu : checkUnsupported n with
  | some e => rw [hu] at h; exact nullErr_ok h
  | none =>
    rw [hu, he] at h
    cases values with
    | nil => exact hne rfl
    | cons a l =>
      dsimp only at h
      unfold parseEnum at h
      obtain ⟨o, s1, h1, h2⟩ := bind_ok.1 h
      cases o with
      | none => exact nullErr_ok h2
      | some f' =>
        dsimp only at h2
        have hs : s1 = s' := by
          cases hl : (a :: l).filter f' with
          | nil => rw [hl] at h2; exact absurd h2 nullErr_ok
          | cons x t =>
            rw [hl] at h2
            cases t with
            | nil => exact (okGen_ok h2).2
            | cons y t => exact (okGen_ok h2).2
        subst hs
        have hff : some f' = some f := (validatorFor_own h1).compiled.symm.trans ho.compiled
        injection hff with hff
        subst hff
        have : (a :: l).filter f' = [] := by
          rw [List.filter_eq_nil_iff]
          intro v hv
          rw [hno v hv]
          exact Bool.false_ne_true
        rw [this] at h2
        exact nullErr_ok h2

/-! ## C23: string lengths -/

theorem fillLoop_len (ctx : Ctx) (m : Int) : ∀ (k : Nat) (sb r : String) (st st' : GSt),
    fillLoop ctx m k sb st = .ok r st' → m ≤ r.length := by
  intro k
  induction k with
  | zero =>
    intro sb r st st' h
    unfold fillLoop at h
    split at h
    · simp at h
    · obtain ⟨rfl, _⟩ := pure_ok.1 h
      omega
  | succ k ih =>
    intro sb r st st' h
    unfold fillLoop at h
    split at h
    · obtain ⟨x, s1, _, h⟩ := bind_ok.1 h
      exact ih _ _ _ _ h
    · obtain ⟨rfl, _⟩ := pure_ok.1 h
      omega

theorem stringGenerate_len {ctx : Ctx} {g : StrGen} {v : JVal} {st st' : GSt} (hf : g.format = "") (hp : g.pattern = "")
    (hm : g.maxLength = 0 ∨ g.minLength ≤ g.maxLength) (h : stringGenerate ctx g st = .ok v st') :
    ∃ t : String, v = .str t ∧ g.minLength ≤ t.length ∧ (g.maxLength ≠ 0 → (t.length : Int) ≤ g.maxLength) := by
  unfold stringGenerate at h
  obtain ⟨_, s1, _, h⟩ := bind_ok.1 h
  rw [if_neg (by simp [hf]), if_neg (by simp [hp])] at h
  obtain ⟨x, s2, _, h⟩ := bind_ok.1 h
  obtain ⟨sb, s3, h3, h⟩ := bind_ok.1 h
  have hlen := fillLoop_len ctx g.minLength _ _ _ _ _ h3
  split at h
  · rename_i hc
    split at h
    · simp at h
    · obtain ⟨rfl, _⟩ := pure_ok.1 h
      refine ⟨_, rfl, ?_, ?_⟩
      · rw [String.length_ofList, List.length_take, String.length_toList]
        rcases hm with hm | hm <;> omega
      · intro _
        rw [String.length_ofList, List.length_take]
        omega
  · rename_i hc
    obtain ⟨rfl, _⟩ := pure_ok.1 h
    refine ⟨_, rfl, hlen, ?_⟩
    intro h0
    by_contra hgt
    exact hc ⟨h0, by omega⟩

theorem parseType_string {c : PEnv} {r : PRec} {n : SchemaNode} : parseType c r "string" n = parseString c n := by
  unfold parseType
  rw [if_neg (by decide), if_neg (by decide), if_neg (by decide), if_neg (by decide), if_pos rfl]

theorem plain_typed {c : PEnv} {k : Nat} {n : SchemaNode} {s s' : PSt} {g : Gen} {t : String} (hp : Plain n)
    (he : n.enum = none) (hc : n.const = none) (ht : n.type = some { single := t }) (ht' : t ≠ "")
    (h : (parseRec c (k + 1)).schema n s = .ok (g, none) s') : parseType c (parseRec c k) t n s = .ok (g, none) s' := by
  change parseSchemaStep c (parseRec c k) n s = _ at h
  rw [plain_step hp] at h
  cases hu : checkUnsupported n with
  | some e => rw [hu] at h; exact absurd h nullErr_ok
  | none =>
    rw [hu, he, hc] at h
    dsimp only at h
    unfold parseByType at h
    rw [ht] at h
    dsimp only [Option.bind, getZeroIfNil, Option.getD] at h
    simp only [ne_eq, ht', not_false_eq_true, if_true] at h
    exact h

/-- **C23.** Every string generated for an accepted string schema without pattern and format has at least `minLength`
characters and, unless `maxLength` is 0, at most `maxLength`. -/
theorem C23_string_lengths (c : PEnv) (k : Nat) (n : SchemaNode) (s s' : PSt) (g : Gen) (hp : Plain n)
    (he : n.enum = none) (hc : n.const = none) (ht : n.type = some { single := "string" }) (hpat : n.pattern = none)
    (hfmt : n.format = none) (h : (parseRec c (k + 1)).schema n s = .ok (g, none) s') (ctx : Ctx) (j : Nat)
    (st st' : GSt) (v : JVal) (hg : generate ctx j g st = .ok v st') :
    ∃ t : String, v = .str t ∧ (∀ m, n.minLength = some m → m ≤ t.length) ∧
      (∀ m, n.maxLength = some m → m ≠ 0 → (t.length : Int) ≤ m) := by
  have h := plain_typed hp he hc ht (by decide) h
  rw [parseType_string] at h
  unfold parseString at h
  cases hk : checkString n with
  | some e => rw [hk] at h; exact absurd h nullErr_ok
  | none =>
    rw [hk, hpat] at h
    dsimp only at h
    obtain ⟨rfl, _⟩ := okGen_ok h
    obtain ⟨i, hg⟩ := generate_succ hg
    change stringGenerate ctx _ st = _ at hg
    unfold checkString at hk
    dsimp only at hk
    split at hk
    · cases hk
    split at hk
    · cases hk
    split at hk
    · cases hk
    rename_i hmm
    obtain ⟨t, rfl, h1, h2⟩ := stringGenerate_len (by dsimp only; rw [hfmt]; rfl) rfl
      (by dsimp only; by_contra hx; rw [not_or] at hx; exact hmm ⟨by omega, hx.1⟩) hg
    dsimp only at h1 h2
    refine ⟨t, rfl, ?_, ?_⟩
    · intro m hm
      rw [hm] at h1
      exact h1
    · intro m hm h0
      rw [hm] at h2
      exact h2 h0

/-! ## C24: declared types -/

/-- Generation is past the cutoff. -/
def PastCutoff (ctx : Ctx) (st : GSt) : Prop :=
  0 < ctx.o.cutoffGenerationSteps ∧ ctx.o.cutoffGenerationSteps < st.complexity + 1

theorem cutoff_true {ctx : Ctx} {st st' : GSt} (h : cutoff ctx st = .ok true st') :
    0 < ctx.o.cutoffGenerationSteps ∧ ctx.o.cutoffGenerationSteps < st.complexity := by
  unfold cutoff at h
  injection h with h1 _
  unfold shouldCutoff at h1
  simpa using h1

theorem objFill_obj {sub : Gen → M JVal} {g : ObjGen Gen} {m : Int} {acc : ObjMap} {st st' : GSt} {v : JVal}
    (h : objFill sub g m acc st = .ok v st') : ∃ l, v = .obj l := by
  unfold objFill at h
  split at h
  · obtain ⟨r, s1, _, h⟩ := bind_ok.1 h
    exact ⟨_, (pure_ok.1 h).1.symm⟩
  · exact ⟨_, (pure_ok.1 h).1.symm⟩

theorem objExtras_obj {ctx : Ctx} {sub : Gen → M JVal} {g : ObjGen Gen} {t : Int} {acc : ObjMap} {st st' : GSt}
    {v : JVal} (h : objExtras ctx sub g t acc st = .ok v st') : ∃ l, v = .obj l := by
  unfold objExtras at h
  split at h
  · obtain ⟨r, s1, _, h⟩ := bind_ok.1 h
    exact objFill_obj h
  · split at h
    · exact ⟨_, (pure_ok.1 h).1.symm⟩
    · cases ha : g.additional with
      | some a =>
        rw [ha] at h
        obtain ⟨r, s1, _, h⟩ := bind_ok.1 h
        exact objFill_obj h
      | none =>
        rw [ha] at h
        obtain ⟨r, s1, _, h⟩ := bind_ok.1 h
        exact objFill_obj h

theorem tick_state {st st' : GSt} {u : Unit} (h : tick st = .ok u st') : st'.complexity = st.complexity + 1 := by
  unfold tick at h
  rw [modS_apply] at h
  injection h with _ h
  rw [← h]

theorem objectGenerate_obj {ctx : Ctx} {sub : Gen → M JVal} {g : ObjGen Gen} {st st' : GSt} {v : JVal}
    (h : objectGenerate ctx sub g st = .ok v st') : HasType "object" v ∨ (v = .null ∧ PastCutoff ctx st) := by
  unfold objectGenerate at h
  obtain ⟨_, s1, h1, h⟩ := bind_ok.1 h
  obtain ⟨b, s2, h2, h⟩ := bind_ok.1 h
  split at h
  · rename_i hb
    subst hb
    obtain ⟨_, s3, _, h⟩ := bind_ok.1 h
    have := cutoff_true h2
    rw [tick_state h1] at this
    exact Or.inr ⟨(pure_ok.1 h).1.symm, this⟩
  · left
    obtain ⟨_, s3, _, h⟩ := bind_ok.1 h
    obtain ⟨_, s4, _, h⟩ := bind_ok.1 h
    obtain ⟨_, s5, _, h⟩ := bind_ok.1 h
    obtain ⟨_, s6, _, h⟩ := bind_ok.1 h
    obtain ⟨_, s7, _, h⟩ := bind_ok.1 h
    obtain ⟨l, rfl⟩ := objExtras_obj h
    exact .object l

theorem arrayGenerate_arr {ctx : Ctx} {sub : Gen → M JVal} {g : ArrGen Gen} {st st' : GSt} {v : JVal}
    (h : arrayGenerate ctx sub g st = .ok v st') : HasType "array" v ∨ (v = .null ∧ PastCutoff ctx st) := by
  unfold arrayGenerate at h
  obtain ⟨_, s1, h1, h⟩ := bind_ok.1 h
  obtain ⟨b, s2, h2, h⟩ := bind_ok.1 h
  split at h
  · rename_i hb
    subst hb
    obtain ⟨_, s3, _, h⟩ := bind_ok.1 h
    have := cutoff_true h2
    rw [tick_state h1] at this
    exact Or.inr ⟨(pure_ok.1 h).1.symm, this⟩
  · left
    obtain ⟨_, s3, _, h⟩ := bind_ok.1 h
    split at h
    · obtain ⟨rfl, _⟩ := pure_ok.1 h; exact .array _
    · obtain ⟨_, s4, _, h⟩ := bind_ok.1 h
      obtain ⟨_, s5, _, h⟩ := bind_ok.1 h
      obtain ⟨_, s6, _, h⟩ := bind_ok.1 h
      obtain ⟨rfl, _⟩ := pure_ok.1 h; exact .array _

theorem stringGenerate_str {ctx : Ctx} {g : StrGen} {st st' : GSt} {v : JVal}
    (h : stringGenerate ctx g st = .ok v st') : HasType "string" v := by
  unfold stringGenerate at h
  obtain ⟨_, s1, h1, h⟩ := bind_ok.1 h
  split at h
  · obtain ⟨_, s2, _, h⟩ := bind_ok.1 h
    obtain ⟨rfl, _⟩ := pure_ok.1 h; exact .string _
  · split at h
    · cases hq : g.patternGen with
      | some p =>
        rw [hq] at h
        obtain ⟨_, s2, _, h⟩ := bind_ok.1 h
        obtain ⟨rfl, _⟩ := pure_ok.1 h; exact .string _
      | none => rw [hq] at h; simp at h
    · obtain ⟨_, s2, _, h⟩ := bind_ok.1 h
      obtain ⟨_, s3, _, h⟩ := bind_ok.1 h
      split at h
      · split at h
        · simp at h
        · obtain ⟨rfl, _⟩ := pure_ok.1 h; exact .string _
      · obtain ⟨rfl, _⟩ := pure_ok.1 h; exact .string _

theorem numberGenerate_num {w : World} {g : NumGen} {st st' : GSt} {v : JVal}
    (h : numberGenerate w g st = .ok v st') : HasType (if g.isInt then "integer" else "number") v := by
  unfold numberGenerate at h
  obtain ⟨r, s1, h1, h⟩ := bind_ok.1 h
  split at h
  · obtain ⟨rfl, _⟩ := pure_ok.1 h
    split
    · exact .integer 0
    · exact .number 0
  · split at h
    · rename_i hi
      obtain ⟨rfl, _⟩ := pure_ok.1 h
      rw [if_pos hi]
      exact .integer _
    · rename_i hi
      rw [if_neg hi]
      split at h
      · obtain ⟨rfl, _⟩ := pure_ok.1 h; exact .number _
      · obtain ⟨rfl, _⟩ := pure_ok.1 h; exact .number _

theorem parseNumber_num {F : FP} {P : Platform} {n : NumSpec} {isInt : Bool} {r : NumResult}
    (h : parseNumber F P n isInt = .ok r) :
    (∃ q, r = .const q ∧ HasType (if isInt then "integer" else "number") (.num q)) ∨ ∃ g, r = .gen g ∧ g.isInt = isInt := by
  unfold parseNumber at h
  cases hr : resolveMinMaxForNode F P n isInt with
  | error e => rw [hr] at h; cases h
  | ok b =>
    obtain ⟨mn, mx⟩ := b
    rw [hr] at h
    dsimp only at h
    split at h
    · injection h with h
      left
      refine ⟨mn, h.symm, ?_⟩
      cases isInt with
      | false => exact .number _
      | true =>
        unfold resolveMinMaxForNode at hr
        simp only [if_true, true_and] at hr
        split at hr
        · cases hr
        · split at hr
          · cases hr
          · split at hr
            · cases hr
            · injection hr with hr
              have := congrArg Prod.fst hr
              dsimp only at this
              rw [← this]
              exact .integer _
    · injection h with h
      right
      exact ⟨_, h.symm, rfl⟩

theorem parseNumberNode_num {c : PEnv} {n : SchemaNode} {isInt : Bool} {s s' : PSt} {g : Gen}
    (h : parseNumberNode c n isInt s = .ok (g, none) s') {ctx : Ctx} {j : Nat} {st st' : GSt} {v : JVal}
    (hg : generate ctx j g st = .ok v st') : HasType (if isInt then "integer" else "number") v := by
  unfold parseNumberNode at h
  cases hr : parseNumber c.fp c.plat
      { minimum := n.minimum, maximum := n.maximum, exclusiveMinimum := n.exclusiveMinimum
        exclusiveMaximum := n.exclusiveMaximum, multipleOf := n.multipleOf } isInt with
  | error e =>
    rw [hr] at h
    have := (pure_ok.1 h).1
    cases this
  | ok r =>
    rw [hr] at h
    obtain ⟨rfl, _⟩ := okGen_ok h
    obtain ⟨i, hg⟩ := generate_succ hg
    rcases parseNumber_num hr with ⟨q, rfl, ht⟩ | ⟨g, rfl, hi⟩
    · obtain ⟨rfl, _⟩ := pure_ok.1 hg; exact ht
    · change genStep ctx _ (.num g) st = _ at hg
      unfold genStep at hg
      obtain ⟨_, s2, _, hg⟩ := bind_ok.1 hg
      have := numberGenerate_num hg
      rw [hi] at this
      exact this

/-- The generator that the parser builds for one type name yields values of that type. -/
theorem parseType_typed {c : PEnv} {r : PRec} {n : SchemaNode} {t : String} (ht : t ∈ jsonTypes) {s s' : PSt} {g : Gen}
    (h : parseType c r t n s = .ok (g, none) s') {ctx : Ctx} {j : Nat} {st st' : GSt} {v : JVal}
    (hg : generate ctx j g st = .ok v st') : HasType t v ∨ (v = .null ∧ PastCutoff ctx st) := by
  unfold parseType at h
  split at h
  · rename_i h1
    subst h1
    unfold parseObject at h
    cases hk : checkObject n with
    | some e => rw [hk] at h; exact absurd h nullErr_ok
    | none =>
      rw [hk] at h
      obtain ⟨_, s1, _, h⟩ := bind_ok.1 h
      obtain ⟨_, s2, _, h⟩ := bind_ok.1 h
      obtain ⟨_, s3, _, h⟩ := bind_ok.1 h
      obtain ⟨rfl, _⟩ := okGen_ok h
      obtain ⟨i, hg⟩ := generate_succ hg
      exact objectGenerate_obj hg
  split at h
  · rename_i h1
    subst h1
    unfold parseArray at h
    cases hk : checkArray n with
    | some e => rw [hk] at h; exact absurd h nullErr_ok
    | none =>
      rw [hk] at h
      obtain ⟨o1, s1, _, h⟩ := bind_ok.1 h
      cases o1 with
      | error e => exact absurd h nullErr_ok
      | ok item =>
      dsimp only at h
      obtain ⟨o2, s2, _, h⟩ := bind_ok.1 h
      cases o2 with
      | error e => exact absurd h nullErr_ok
      | ok additional =>
      dsimp only at h
      obtain ⟨o3, s3, _, h⟩ := bind_ok.1 h
      cases o3 with
      | error e => exact absurd h nullErr_ok
      | ok contains =>
      dsimp only at h
      obtain ⟨o4, s4, _, h⟩ := bind_ok.1 h
      cases o4 with
      | error e => exact absurd h nullErr_ok
      | ok tuple =>
      dsimp only at h
      obtain ⟨o5, s5, _, h⟩ := bind_ok.1 h
      cases o5 with
      | error e => exact absurd h nullErr_ok
      | ok unevaluated =>
      dsimp only at h
      obtain ⟨rfl, _⟩ := okGen_ok h
      obtain ⟨i, hg⟩ := generate_succ hg
      exact arrayGenerate_arr hg
  split at h
  · rename_i h1; subst h1; exact Or.inl (parseNumberNode_num h hg)
  split at h
  · rename_i h1; subst h1; exact Or.inl (parseNumberNode_num h hg)
  split at h
  · rename_i h1
    subst h1
    left
    unfold parseString at h
    cases hk : checkString n with
    | some e => rw [hk] at h; exact absurd h nullErr_ok
    | none =>
      rw [hk] at h
      dsimp only at h
      cases hq : n.pattern with
      | none =>
        rw [hq] at h
        obtain ⟨rfl, _⟩ := okGen_ok h
        obtain ⟨i, hg⟩ := generate_succ hg
        exact stringGenerate_str hg
      | some p =>
        rw [hq] at h
        obtain ⟨o, s1, _, h⟩ := bind_ok.1 h
        cases o with
        | error e => exact absurd h nullErr_ok
        | ok rx =>
          dsimp only at h
          obtain ⟨rfl, _⟩ := okGen_ok h
          obtain ⟨i, hg⟩ := generate_succ hg
          exact stringGenerate_str hg
  split at h
  · rename_i h1
    subst h1
    obtain ⟨rfl, _⟩ := okGen_ok h
    obtain ⟨i, hg⟩ := generate_succ hg
    unfold genStep at hg
    obtain ⟨b, s2, _, hg⟩ := bind_ok.1 hg
    obtain ⟨rfl, _⟩ := pure_ok.1 hg
    exact Or.inl (.boolean b)
  · rename_i h1 h2 h3 h4 h5 h6
    have : t = "null" := by
      simp only [jsonTypes, List.mem_cons, List.not_mem_nil, or_false] at ht
      tauto
    subst this
    obtain ⟨rfl, _⟩ := okGen_ok h
    obtain ⟨i, hg⟩ := generate_succ hg
    unfold genStep at hg
    obtain ⟨_, s2, _, hg⟩ := bind_ok.1 hg
    obtain ⟨rfl, _⟩ := pure_ok.1 hg
    exact Or.inl .null

/-- **C24.** Whatever is generated for an accepted schema with a single `type` is of that type, or it is null because
generation is past the cutoff. -/
theorem C24_single_type (c : PEnv) (k : Nat) (n : SchemaNode) (t : String) (s s' : PSt) (g : Gen) (hp : Plain n)
    (he : n.enum = none) (hc : n.const = none) (htn : t ∈ jsonTypes) (ht : n.type = some { single := t })
    (h : (parseRec c (k + 1)).schema n s = .ok (g, none) s') (ctx : Ctx) (j : Nat) (st st' : GSt) (v : JVal)
    (hg : generate ctx j g st = .ok v st') : HasType t v ∨ (v = .null ∧ PastCutoff ctx st) := by
  have h0 : t ≠ "" := by rintro rfl; revert htn; decide
  exact parseType_typed htn (plain_typed hp he hc ht h0 h) hg

/-- What `parseTypes` returns: for each name, the generator of that type, or a null generator if that type was rejected. -/
theorem parseTypes_each {c : PEnv} {r : PRec} (hr : KeepsRec c r) {n : SchemaNode} : ∀ {ts : List String} {s s' : PSt}
    {gs : List Gen}, parseTypes c r n ts s = .ok gs s' → ∀ g ∈ gs, ∃ t ∈ ts, ∃ s1 s2 x,
      s1.path = s.path ∧ s1.depth = s.depth ∧ parseType c r t n s1 = .ok x s2 ∧ g = orNull x := by
  intro ts
  induction ts with
  | nil =>
    intro s s' gs h g hg
    unfold parseTypes at h
    obtain ⟨rfl, _⟩ := pure_ok.1 h
    cases hg
  | cons t ts ih =>
    intro s s' gs h g hg
    unfold parseTypes at h
    obtain ⟨x, s1, h1, h⟩ := bind_ok.1 h
    obtain ⟨rest, s2, h2, h⟩ := bind_ok.1 h
    obtain ⟨rfl, _⟩ := pure_ok.1 h
    rcases List.mem_cons.1 hg with rfl | hg
    · exact ⟨t, List.mem_cons_self, s, s1, x, rfl, rfl, h1, rfl⟩
    · obtain ⟨t', ht', a, b, y, hp, hd, hy, hgy⟩ := ih h2 g hg
      have he := keeps_parseType hr t n s x s1 h1
      exact ⟨t', List.mem_cons_of_mem _ ht', a, b, y, hp.trans he.path, hd.trans he.depth, hy, hgy⟩

theorem parseType_retype (c : PEnv) (r : PRec) (t : String) (n : SchemaNode) (x : Option MultipleType) :
    parseType c r t { n with type := x } = parseType c r t n := by
  unfold parseType parseObject parseArray parseString parseNumberNode
  rfl

theorem schema_of_parseType {c : PEnv} {k : Nat} {n : SchemaNode} {t : String} (hp : Plain n) (he : n.enum = none)
    (hc : n.const = none) (hu : checkUnsupported n = none) (ht : t ≠ "") :
    (parseRec c (k + 1)).schema { n with type := some { single := t } } = parseType c (parseRec c k) t n := by
  change parseSchemaStep c (parseRec c k) _ = _
  have hp' : Plain { n with type := some { single := t } } :=
    ⟨hp.ref, hp.allOf, hp.oneOf, hp.anyOf, hp.not, hp.mergedNot, hp.ifN, hp.mergedIf⟩
  rw [plain_step hp']
  have hu' : checkUnsupported { n with type := some { single := t } } = none := hu
  rw [hu']
  dsimp only
  rw [he, hc]
  dsimp only
  unfold parseByType
  dsimp only [Option.bind, getZeroIfNil, Option.getD]
  refine Eq.trans (if_pos ht) ?_
  have := parseType_retype c (parseRec c k) t n (some { single := t })
  rw [← he, ← hc]
  exact this

/-- **C24, list of types (partial).** Whatever is generated for an accepted schema with a list of types is of one of the
listed types, or null because generation is past the cutoff, or null because one of the listed types, given alone at the
same position, is rejected with an error.  The last case is what is missing: see `C24_type_list_violation`. -/
theorem C24_type_list_partial (c : PEnv) (k : Nat) (n : SchemaNode) (ts : List String) (s s' : PSt) (g : Gen)
    (hp : Plain n) (he : n.enum = none) (hc : n.const = none) (hts : ∀ t ∈ ts, t ∈ jsonTypes)
    (ht : n.type = some { multiple := some ts }) (h : (parseRec c (k + 1)).schema n s = .ok (g, none) s') (ctx : Ctx)
    (j : Nat) (st st' : GSt) (v : JVal) (hg : generate ctx j g st = .ok v st') :
    (∃ t ∈ ts, HasType t v) ∨ (v = .null ∧ PastCutoff ctx st) ∨
      (v = .null ∧ ∃ t ∈ ts, ∃ s1 s2 a e, s1.path = s.path ∧ s1.depth = s.depth ∧
        (parseRec c (k + 1)).schema { n with type := some { single := t } } s1 = .ok (a, some e) s2) := by
  change parseSchemaStep c (parseRec c k) n s = _ at h
  rw [plain_step hp] at h
  cases hu : checkUnsupported n with
  | some e => rw [hu] at h; exact absurd h nullErr_ok
  | none =>
    rw [hu, he, hc] at h
    dsimp only at h
    unfold parseByType at h
    rw [ht] at h
    dsimp only [Option.bind] at h
    unfold parseMultipleType at h
    obtain ⟨gs, s1, h1, h⟩ := bind_ok.1 h
    obtain ⟨rfl, _⟩ := okGen_ok h
    obtain ⟨i, hg⟩ := generate_succ hg
    change multiGenerate ctx _ gs st = _ at hg
    unfold multiGenerate at hg
    obtain ⟨idx, st1, hi, hg⟩ := bind_ok.1 hg
    obtain ⟨g1, st2, hix, hgen⟩ := bind_ok.1 hg
    clear hg
    obtain ⟨_, hget, rfl⟩ := indexAt_post gs idx st1 g1 st2 hix
    have hcx : st2.complexity = st.complexity := by
      unfold randomInt at hi
      split at hi
      · rw [(pure_ok.1 hi).2]
      · obtain ⟨_, st3, h3, hi⟩ := bind_ok.1 hi
        rw [← (pure_ok.1 hi).2]
        unfold intn intnWith at h3
        split at h3
        · simp at h3
        · obtain ⟨_, st4, h4, h3⟩ := bind_ok.1 h3
          rw [← (pure_ok.1 h3).2]
          unfold drawSeeded at h4
          injection h4 with _ h4
          rw [← h4]
    obtain ⟨t, htm, a, b, x, hpath, hdepth, hx, hgx⟩ := parseTypes_each (keeps_parseRec k) h1 g1 (List.mem_of_getElem? hget)
    have ht0 : t ≠ "" := by rintro rfl; have := hts _ htm; revert this; decide
    obtain ⟨g0, e⟩ := x
    cases e with
    | none =>
      change g1 = g0 at hgx
      subst hgx
      rcases parseType_typed (hts t htm) hx hgen with h | ⟨rfl, hpc⟩
      · exact Or.inl ⟨t, htm, h⟩
      · refine Or.inr (Or.inl ⟨rfl, ?_⟩)
        unfold PastCutoff at hpc ⊢
        rw [hcx] at hpc
        exact hpc
    | some e =>
      change g1 = .null at hgx
      subst hgx
      obtain ⟨i', hgn⟩ := generate_succ hgen
      unfold genStep at hgn
      obtain ⟨_, s2, _, hgq⟩ := bind_ok.1 hgn
      obtain ⟨rfl, _⟩ := pure_ok.1 hgq
      refine Or.inr (Or.inr ⟨rfl, t, htm, a, b, g0, e, hpath, hdepth, ?_⟩)
      rw [schema_of_parseType hp he hc hu ht0]
      exact hx

/-! ## Concrete runs -/

/-- Parse a schema and run the generator on it; only if the parse reported nothing. -/
def parseThenGenerate (c : PEnv) (ctx : World) (o : Opts) (schema : JVal) : Option JVal :=
  match parseSchema c 20 schema with
  | .done (.ok (g, none) s) =>
    if s.errors.length = 0 then
      match rootGenerate ctx o (refEnv s) 20 g with
      | .ok v _ => some v
      | _ => none
    else none
  | _ => none

/-- Is the generated value equal to this one? -/
def yields (v : JVal) : Option JVal → Bool
  | some w => JVal.jeq v w
  | none => false

/-- C24 is violated for lists of types: a listed type whose keywords contradict each other is silently replaced by null.
`{"type": ["string", "number"], "minimum": 5, "maximum": 1}` parses without any error and generates null. -/
theorem C24_type_list_violation : yields .null (parseThenGenerate demoEnv demoWorld {}
    (.obj [("type", .arr [.str "string", .str "number"]), ("minimum", .num 5), ("maximum", .num 1)])) = true := by
  decide +kernel

/-- C23 has one exception in the code: `maxLength: 0` is ignored. -/
theorem C23_zero_violation : yields (.str "Lorem ipsum.") (parseThenGenerate demoEnv demoWorld {}
    (.obj [("type", .str "string"), ("maxLength", .num 0)])) = true := by
  decide +kernel

/-- An environment whose validator accepts strings only. -/
def stringEnv : PEnv := { demoEnv with compile := fun _ _ => some (fun v => match v with | .str _ => true | _ => false) }

/-- `{"enum": [1, "a", true, "b"]}` with that validator: the theorem's hypotheses hold and "a" is generated. -/
example : yields (.str "b") (parseThenGenerate stringEnv demoWorld {}
    (.obj [("enum", .arr [.num 1, .str "a", .bool true, .str "b"])])) = true := by decide +kernel

example : yields (.str "a") (parseThenGenerate stringEnv demoWorld {} (.obj [("const", .str "a")])) = true := by
  decide +kernel

/-- A constant that the rest of the schema excludes is rejected. -/
example : ((parseSchema stringEnv 20 (.obj [("enum", .arr [.num 1, .bool true])])).result.map (fun r => r.2.isSome)) =
    some true := by decide +kernel

/-- `{"type": "string", "minLength": 20, "maxLength": 22}`. -/
example : yields (.str "Lorem ipsum.Lorem ipsu") (parseThenGenerate demoEnv demoWorld {}
    (.obj [("type", .str "string"), ("minLength", .num 20), ("maxLength", .num 22)])) = true := by decide +kernel

/-- `{"type": "integer", "minimum": 3}`, and a list of types. -/
example : (match parseThenGenerate demoEnv demoWorld {} (.obj [("type", .str "integer"), ("minimum", .num 3)]) with
    | some (.num q) => decide (q.den = 1) | _ => false) = true := by decide +kernel

example : yields (.bool true) (parseThenGenerate demoEnv demoWorld {}
    (.obj [("type", .arr [.str "string", .str "boolean"])])) = true ∨
    yields (.bool false) (parseThenGenerate demoEnv demoWorld {}
    (.obj [("type", .arr [.str "string", .str "boolean"])])) = true := by decide +kernel

end Chaff
