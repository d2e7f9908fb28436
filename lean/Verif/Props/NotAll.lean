import Verif.Props.Valid
import Verif.Lemmas.NotCover
/-!
# C67: all negations are enforced together
-/

namespace Chaff
open Comp
variable {c : PEnv}
/-! ## Through the parser -/

/-- Nodes that parse without references and alternatives. -/
def Conjunctive (n : SchemaNode) : Prop := n.ref = none ∧ n.oneOf = none ∧ n.anyOf = none ∧ n.constraints = none

/-- A negation that needs no flattening. -/
def PlainNegation (x : SchemaNode) : Prop := x.ref = none ∧ x.allOf = none ∧ x.not = none

/-- Some part of the schema negates `x`. -/
def PartNegates (n x : SchemaNode) : Prop := ∃ y, Part n y ∧ Negates y x

/-- No part of the schema lists values. -/
def NoValues (n : SchemaNode) : Prop := EveryPart (fun y => y.enum = none ∧ y.const = none) n

/-- The negated schemas do not mention numbers, so that they do not become enumerations. -/
def NoNumbers (n : SchemaNode) : Prop := ∀ x, PartNegates n x → x.multipleOf = none ∧ x.type = none

/-- The generator's values keep clear of all the negations of the schema. -/
def GenClear (c : PEnv) (n : SchemaNode) (g : Gen) : Prop :=
  ∀ (ctx : Ctx) (m : Nat) (st st' : GSt) (v : JVal), generate ctx m g st = .ok v st' →
    shouldCutoff ctx.o st'.complexity = false →
    (∀ x, PartNegates n x → KeepsClear (compiledMatch c) (compiledFormat c) (Demands n) x v ∧
      (NoValues n → NoNumbers n → KeepsClearOfEnum x v)) ∨ ∃ attempts : Int, v = .str (multiFailure attempts)

theorem part_flat {n y : SchemaNode} (hf : n.allOf = none) (h : Part n y) : y = n := by
  cases h with
  | self => rfl
  | member hl _ _ => rw [hf] at hl; cases hl

theorem mergeSlicePtrs_eq_none {α : Type} {a b : Option (List α)} :
    mergeSlicePtrs [a, b] = none ↔ (a = none ∨ a = some []) ∧ (b = none ∨ b = some []) := by
  unfold mergeSlicePtrs
  cases a <;> cases b <;> simp

theorem merge_conjunctive {k : Nat} {nodes : List SchemaNode} {r : SchemaNode} {s s' : PSt}
    (hr : ∀ n ∈ nodes, EveryPart Conjunctive n) (h : mergeNodes c k nodes s = .ok r s') : EveryPart Conjunctive r := by
  have H : Conj c False True (fun _ => True) Conjunctive Conjunctive :=
    { emptyAcc := trivial
      noRef := fun _ h => h.1
      emptyPre := ⟨rfl, rfl, rfl, rfl⟩
      empty := fun _ => ⟨rfl, rfl, rfl, rfl⟩
      preAllOf := fun _ h => h
      allOf := fun _ => Iff.rfl
      step := fun rec m n r s s' _ hm hn hk h _ => by
        obtain ⟨f, -⟩ := mergeFields_inv (c := c) h
        have : Conjunctive r := by
          refine ⟨(f.ref hn.1).trans hm.1, ?_, ?_, ?_⟩
          · rw [f.oneOf, hm.2.1, hn.2.1]; rfl
          · rw [f.anyOf, hm.2.2.1, hn.2.2.1]; rfl
          · rw [f.constraints, hm.2.2.2, hn.2.2.2]; rfl
        exact ⟨trivial, this, fun _ => ⟨hm, hn⟩, fun _ _ _ => this⟩ }
  exact (H.merge k nodes r s s' hr h False.elim).2.1

theorem merge_noValues {k : Nat} {nodes : List SchemaNode} {r : SchemaNode} {s s' : PSt}
    (hr : ∀ n ∈ nodes, RefFree n) (hv : ∀ n ∈ nodes, NoValues n) (h : mergeNodes c k nodes s = .ok r s') : NoValues r := by
  have H : Conj c False True (fun _ => True) (fun x => x.ref = none ∧ x.enum = none ∧ x.const = none)
      (fun x => x.enum = none ∧ x.const = none) :=
    { emptyAcc := trivial
      noRef := fun _ h => h.1
      emptyPre := ⟨rfl, rfl, rfl⟩
      empty := fun _ => ⟨rfl, rfl⟩
      preAllOf := fun _ h => h
      allOf := fun _ => Iff.rfl
      step := fun rec m n r s s' _ hm hn hk h _ => by
        obtain ⟨f, -⟩ := mergeFields_inv (c := c) h
        have none' : ∀ x : SchemaNode, x.enum = none ∧ x.const = none → collectEnumValues x = none := by
          intro x hx; unfold collectEnumValues; rw [hx.1, hx.2]
        have := (mergeFields_empty h (none' m hm.2)).1 (none' n hn.2)
        exact ⟨trivial, ⟨(f.ref hn.1).trans hm.1, this⟩, fun _ => ⟨hm.2, hn.2⟩, fun _ _ _ => this⟩ }
  exact (H.merge k nodes r s s' (fun n hn x hx => ⟨hr n hn x hx, hv n hn x hx⟩) h False.elim).2.2.2 trivial hv

theorem parseNot_clear {r : PRec} {n : SchemaNode} {g : Gen} {s s' : PSt} (hk : KeepsRec c r) (hc : Conjunctive n)
    (ha : n.allOf = none) (hp : ∀ x, Negates n x → PlainNegation x) (hx : ∃ x, Negates n x)
    (h : parseNot c r n s = .ok (g, none) s') (hq : s'.errors.length = s.errors.length) : GenClear c n g ∧ g ≠ .nilGen := by
  have hcol : ∀ x, x ∈ collectNots n ↔ Negates n x := by
    intro x
    unfold collectNots Negates
    cases hn : n.not <;> simp [eq_comm]
  have hpart : ∀ x, PartNegates n x ↔ Negates n x :=
    fun x => ⟨fun ⟨y, hy, hn⟩ => by rw [part_flat ha hy] at hn; exact hn, fun h => ⟨n, .self n, h⟩⟩
  unfold parseNot at h
  obtain ⟨parts, s1, h1, h⟩ := bind_ok.1 h
  obtain ⟨base, s2, h2, h⟩ := bind_ok.1 h
  obtain ⟨q1, q2, q3⟩ := partitionNots_flat _ _ _ _ _ h1 (fun x hx => hp x ((hcol x).1 hx))
  rw [q1] at h2
  rw [if_neg (by simp)] at h2
  obtain ⟨hb, hs2⟩ := pure_ok.1 h2
  subst hs2
  rw [if_neg (by
    obtain ⟨x, hx⟩ := hx
    obtain ⟨y, hy, -⟩ := q2 x ((hcol x).2 hx)
    exact fun e => by rw [List.length_eq_zero_iff] at e; rw [e] at hy; cases hy)] at h
  obtain ⟨flat, s3, h3, h⟩ := bind_ok.1 h
  obtain ⟨res, s4, h4, h⟩ := bind_ok.1 h
  obtain ⟨gg, s5, h5, h⟩ := bind_ok.1 h
  cases hg : gg.2 with
  | some e => rw [hg] at h; cases h
  | none =>
    rw [hg] at h
    dsimp only at h
    obtain ⟨e, hs5⟩ := pure_ok.1 h
    subst hs5
    have e1 := (Prod.mk.inj e).1
    subst e1
    have g1 := (keeps_partitionNots (c := c) _ _ _).grow h1
    have g3 := (keeps_mergeNodes (c := c) _ _).grow h3
    have g4 := (keeps_applyNots (c := c) _ _ _ _).grow h4
    have g5 := (hk.node _).grow h5
    obtain ⟨-, -, a3, a4⟩ := applyNots_covers _ _ _ _ _ _ h4 (by omega)
    refine ⟨?_, by simp⟩
    intro ctx m st st' v hgen hcut
    obtain ⟨fns, hf, -⟩ := compileColl_eq c res.2
    rw [hf] at hgen
    rcases C29_not_constraints ctx m gg.1 [] fns st v st' hgen hcut with hv | hv
    · refine .inl fun x hx => ?_
      rw [hpart] at hx
      obtain ⟨y, hy, sn⟩ := q2 x ((hcol x).2 hx)
      have hreffree : ∀ z ∈ [base], RefFree z := by
        intro z hz
        rw [List.mem_singleton] at hz
        subst hz
        refine (everyPart_flat ?_).2 ?_
        · rw [← hb]; exact ha
        · rw [← hb]; exact hc.1
      refine ⟨covers_clear hf hv sn (a3 y hy) ?_, fun hnv hnn => ?_⟩
      · intro name hname
        have : ∃ z, Part flat z ∧ Requires z name := by
          refine ⟨flat, .self _, ?_⟩
          cases hfr : flat.required with
          | none => rw [hfr] at hname; simp [getZeroIfNil] at hname
          | some l => rw [hfr] at hname; exact ⟨l, hfr, hname⟩
        obtain ⟨z, hz, w, hw, hr⟩ := (C34_required_names hreffree h3 name).1 this
        rw [List.mem_singleton] at hz
        subst hz
        rw [part_flat (by rw [← hb]; exact ha) hw] at hr
        refine ⟨n, .self n, ?_⟩
        obtain ⟨l, hl, hm⟩ := hr
        exact ⟨l, by rw [← hl, ← hb], hm⟩
      · have hflat : NoValues flat := merge_noValues hreffree (by
          intro z hz
          rw [List.mem_singleton] at hz
          subst hz
          refine (everyPart_flat (by rw [← hb]; exact ha)).2 ?_
          rw [← hb]
          exact hnv n (.self n)) h3
        obtain ⟨f1, f2⟩ := hflat flat (.self _)
        refine covers_clear_enum hf hv sn (a3 y hy) (a4 f1 f2 (fun z hz => ?_) y hy)
        obtain ⟨z', hz', sz⟩ := q3 z hz
        have := hnn z' ((hpart z').2 ((hcol z').1 hz'))
        exact sz.multiple this.1 this.2
    · exact .inr hv

theorem parseInScope_inv {r : PRec} {scope : String} {node : SchemaNode} {src : List SchemaNode} {g : Gen × Option Err}
    {s s' : PSt} (hk : KeepsRec c r) (h : parseInScope c r scope node src s = .ok g s')
    (hq : s'.errors.length = s.errors.length) :
    ∃ s1 s2, r.node node s1 = .ok g s2 ∧ s2.errors.length = s1.errors.length := by
  unfold parseInScope at h
  obtain ⟨u1, s1, h1, h⟩ := bind_ok.1 h
  obtain ⟨n, s2, h2, h⟩ := bind_ok.1 h
  obtain ⟨g', s3, h3, h⟩ := bind_ok.1 h
  obtain ⟨u2, s4, h4, h⟩ := bind_ok.1 h
  obtain ⟨u3, s5, h5, h⟩ := bind_ok.1 h
  obtain ⟨rfl, rfl⟩ := pure_ok.1 h
  refine ⟨s2, s3, h3, ?_⟩
  have e1 : s1.errors = s.errors := by
    unfold pushPath at h1
    rw [modS_apply] at h1
    injection h1 with _ h1
    rw [← h1]
  have e2 : s1.errors.length ≤ s2.errors.length := by
    obtain ⟨keys, -, -, E⟩ := pushSources_ev src h2
    obtain ⟨l, hl, -⟩ := E.errors
    dsimp only at hl
    rw [hl]; simp
  have e3 := (hk.node node).grow h3
  have e4 := popSources_errors _ _ _ _ h4
  have e5 : s5.errors = s4.errors := by
    unfold popPath at h5
    split at h5
    · injection h5 with _ h5; rw [← h5]
    · cases h5
  rw [e5, e4, ← e1] at hq
  omega

/-- The generator of a node, or of a schema node, keeps clear of all its negations. -/
theorem parseRec_clear : ∀ (k : Nat) (n : SchemaNode) (g : Gen) (s s' : PSt), EveryPart Conjunctive n →
    (∀ x, PartNegates n x → PlainNegation x) → (∃ x, PartNegates n x) → s'.errors.length = s.errors.length →
    ((parseRec c k).schema n s = .ok (g, none) s' ∨ (parseRec c k).node n s = .ok (g, none) s') →
    GenClear c n g ∧ g ≠ .nilGen := by
  intro k
  induction k with
  | zero => rintro n g s s' _ _ _ _ (h | h) <;> cases h
  | succ k ih =>
    intro n g s s' hc hp hx hq h
    have hk := keeps_parseRec (c := c) k
    rcases h with h | h
    · unfold parseRec at h
      dsimp only at h
      unfold parseSchemaStep at h
      cases hu : checkUnsupported n with
      | some e => rw [hu] at h; cases h
      | none =>
      rw [hu] at h
      dsimp only at h
      obtain ⟨hr, ho, hany, hcon⟩ := hc n (.self n)
      rw [hr] at h
      dsimp only at h
      cases ha : n.allOf with
      | some l =>
        rw [ha] at h
        dsimp only at h
        unfold parseAllOf at h
        obtain ⟨m, s1, h1, h⟩ := bind_ok.1 h
        obtain ⟨g1, s2, h2, h⟩ := bind_ok.1 h
        cases hg : g1.2 with
        | some e => rw [hg] at h; cases h
        | none =>
          rw [hg] at h
          obtain ⟨e, hs2⟩ := pure_ok.1 h
          subst hs2
          have e1 := (Prod.mk.inj e).1
          subst e1
          have k1 := (keeps_mergeNodes (c := c) _ _).grow h1
          have k2 := (keeps_parseInScope (c := c) hk _ _ _).grow h2
          obtain ⟨t1, t2, h3, hq3⟩ := parseInScope_inv hk h2 (by omega)
          have hcl : ∀ x ∈ l ++ [{ n with allOf := none }], EveryPart Conjunctive x :=
            (everyPart_split (Q := Conjunctive) ha Iff.rfl).2 hc
          have hrf : ∀ x ∈ l ++ [{ n with allOf := none }], RefFree x := fun x hx y hy => (hcl x hx y hy).1
          have hsplit : ∀ Q : SchemaNode → Prop, (Q { n with allOf := none } ↔ Q n) →
              ((∃ x ∈ l ++ [{ n with allOf := none }], ∃ y, Part x y ∧ Q y) ↔ ∃ y, Part n y ∧ Q y) := by
            intro Q hQ
            have := everyPart_split (Q := fun y => ¬ Q y) ha (not_congr hQ)
            unfold EveryPart at this
            constructor
            · rintro ⟨x, hx, y, hy, hQy⟩
              by_contra hno
              exact this.2 (fun y hy hQ => hno ⟨y, hy, hQ⟩) x hx y hy hQy
            · rintro ⟨y, hy, hQy⟩
              by_contra hno
              exact this.1 (fun x hx y hy hQ => hno ⟨x, hx, y, hy, hQ⟩) y hy hQy
          have hneg : ∀ x, PartNegates m x ↔ PartNegates n x := fun x =>
            (C63_negations_kept hrf h1 x).trans (hsplit (fun y => Negates y x) Iff.rfl)
          have hdem : ∀ x, Demands m x ↔ Demands n x := fun x =>
            (C34_required_names hrf h1 x).trans (hsplit (fun y => Requires y x) Iff.rfl)
          have hval : NoValues n → NoValues m := fun hv => merge_noValues hrf
            ((everyPart_split (Q := fun y => y.enum = none ∧ y.const = none) ha Iff.rfl).2 hv) h1
          have hnum : NoNumbers n → NoNumbers m := fun hv x hx => hv x ((hneg x).1 hx)
          have hg1 : g1 = (g1.1, none) := by rw [← hg]
          rw [hg1] at h3
          obtain ⟨i1, -⟩ := ih m g1.1 t1 t2 (merge_conjunctive hcl h1) (fun x hx => hp x ((hneg x).1 hx))
            (by obtain ⟨x, hx⟩ := hx; exact ⟨x, (hneg x).2 hx⟩) hq3 (.inr h3)
          refine ⟨?_, by simp⟩
          intro ctx d st st' v hgen hcut
          cases d with
          | zero => cases hgen
          | succ d =>
            rcases i1 ctx d st st' v hgen hcut with hv | hv
            · refine .inl fun x hx => ?_
              obtain ⟨c1, c2⟩ := hv x ((hneg x).2 hx)
              refine ⟨⟨c1.pattern, c1.format, c1.const, ?_⟩, fun a b => c2 (hval a) (hnum b)⟩
              intro names name l w hn hname hd
              exact c1.required names name l w hn hname (fun h => hd ((hdem name).1 h))
            · exact .inr hv
      | none =>
        rw [ha] at h
        dsimp only at h
        have hpart : ∀ x, PartNegates n x ↔ Negates n x :=
          fun x => ⟨fun ⟨y, hy, hn⟩ => by rw [part_flat ha hy] at hn; exact hn, fun h => ⟨n, .self n, h⟩⟩
        obtain ⟨x, hx⟩ := hx
        rw [hpart] at hx
        rw [if_neg (by rw [ho, hany]; simp), if_pos (by
          rcases hx with hx | hx
          · left; rw [hx]; rfl
          · right; exact List.length_pos_of_mem hx)] at h
        exact parseNot_clear hk ⟨hr, ho, hany, hcon⟩ ha (fun y hy => hp y ((hpart y).2 hy)) ⟨x, hx⟩ h hq
    · unfold parseRec at h
      dsimp only at h
      unfold parseNodeStep at h
      obtain ⟨u, s1, h1, h⟩ := bind_ok.1 h
      rw [modS_apply] at h1
      injection h1 with _ h1
      obtain ⟨d, s2, h2, h⟩ := bind_ok.1 h
      have e2 : s2 = s1 := by cases h2; rfl
      split at h
      · obtain ⟨u, s3, h3, h⟩ := bind_ok.1 h
        cases h
      · obtain ⟨r, s3, h3, h⟩ := bind_ok.1 h
        obtain ⟨u4, s4, h4, h⟩ := bind_ok.1 h
        obtain ⟨u5, s5, h5, h⟩ := bind_ok.1 h
        obtain ⟨u6, s6, h6, h⟩ := bind_ok.1 h
        rw [(hc n (.self n)).2.2.2] at h
        obtain ⟨e, hs6⟩ := pure_ok.1 h
        rw [modS_apply] at h6
        injection h6 with _ h6
        have er : r.2 = none := (Prod.mk.inj e).2
        have eg := (Prod.mk.inj e).1
        have hr : r = (r.1, none) := by rw [← er]
        have g3 := (hk.schema n).grow h3
        have g4 : s4 = s3 := by
          rw [er] at h4
          unfold recordErr at h4
          exact (pure_ok.1 h4).2.symm
        have g5 := (keeps_registerNode (c := c) _ _).grow h5
        rw [hr] at h3
        have len : s3.errors.length = s2.errors.length := by
          have a : s6.errors = s5.errors := by rw [← h6]
          have b : s1.errors = s.errors := by rw [← h1]
          rw [← hs6, a, ← b] at hq
          rw [g4] at g5
          rw [e2]
          rw [e2] at g3
          omega
        obtain ⟨i1, i2⟩ := ih n r.1 s2 s3 hc hp hx len (.inl h3)
        have : nilToNull r.1 = r.1 := by
          unfold nilToNull
          split
          · rename_i h0; exact absurd h0 i2
          · rfl
        rw [this] at eg
        rw [← eg]
        exact ⟨i1, i2⟩

/-! ## The property -/

theorem part_fresh {n y : SchemaNode} (h : Part n y) : Fresh n → Fresh y := by
  induction h with
  | self => exact id
  | member hl hx _ ih => exact fun hn => ih (hn.child (mem_children_getSub.2 ⟨.allOf, by
      unfold getSub SubVal.children; dsimp only; rw [hl]; exact hx⟩))

/-- A parse without errors contains an error-free parse of the root node, whose generator it returns. -/
theorem parseSchema_root {fuel : Nat} {schema : JVal} {root : SchemaNode} {g : Gen} {e : Option Err} {s : PSt}
    (hroot : decodeNode schema = some root) (h : parseSchema c fuel schema = .done (.ok (g, e) s)) (he : s.errors = []) :
    ∃ s1 s2, (parseRec c fuel).node root s1 = .ok (g, e) s2 ∧ s1.errors = [] ∧ s2.errors = [] := by
  unfold parseSchema at h
  rw [hroot] at h
  simp only at h
  cases hi : initState c root with
  | error e => rw [hi] at h; simp at h
  | ok s0 =>
    rw [hi] at h
    simp only at h
    split at h
    · injection h with h
      unfold parseBody at h
      obtain ⟨a, s1, h1, h2⟩ := bind_ok.1 h
      obtain ⟨_, s2, h3, h4⟩ := bind_ok.1 h2
      obtain ⟨ha, hs2⟩ := pure_ok.1 h4
      subst ha hs2
      have e1 : s1.errors = [] := by
        obtain ⟨l, hl⟩ := (top_parseQueue (keeps_parseRec fuel) fuel h3).1.errors
        rw [he] at hl
        exact (List.append_eq_nil_iff.1 hl.symm).2
      unfold parseRoot at h1
      obtain ⟨_, t1, h5, h1⟩ := bind_ok.1 h1
      obtain ⟨_, t2, h6, h1⟩ := bind_ok.1 h1
      have g1 := ((keeps_parseRec (c := c) fuel).node root).grow h1
      refine ⟨t2, s1, h1, ?_, e1⟩
      rw [e1] at g1
      exact List.length_eq_zero_iff.1 (Nat.le_zero.1 g1)
    · simp at h

/-- **C67.** Take a schema without references and alternatives, whose `not`s (its own and those of the members of its
`allOf`, and of theirs) are plain schemas.  If it parses without an error, then every value generated from it before the
cutoff keeps clear of all of its `not`s at once, or is the documented failure text.  If no part of the schema lists values
and the `not`s do not mention numbers, it also keeps clear of the values that the `not`s list. -/
theorem C67_negations_enforced_together (c : PEnv) (fuel gfuel : Nat) (schema : JVal) (root : SchemaNode) (hw : schema.WF)
    (hroot : decodeNode schema = some root)
    (hplain : EveryPart (fun y => y.ref = none ∧ y.oneOf = none ∧ y.anyOf = none) root)
    (hneg : ∀ x, ForbidsBy root x → x.ref = none ∧ x.allOf = none ∧ x.not = none)
    (g : Gen) (s : PSt) (hparse : parseSchema c fuel schema = .done (.ok (g, none) s)) (herr : s.errors = [])
    (w : World) (o : Opts) (v : JVal) (st : GSt) (hgen : rootGenerate w o (refEnv s) gfuel g = .ok v st)
    (hcut : shouldCutoff (withGeneratorOptionsDefaults o) st.complexity = false) :
    (∀ x, ForbidsBy root x → KeepsClear (compiledMatch c) (compiledFormat c) (Demands root) x v ∧
      (EveryPart (fun y => y.enum = none ∧ y.const = none) root →
        (∀ z, ForbidsBy root z → z.multipleOf = none ∧ z.type = none) → KeepsClearOfEnum x v)) ∨
    ∃ attempts : Int, v = .str (multiFailure attempts) := by
  have hfresh := decode_fresh hw hroot
  have hN : ∀ x, PartNegates root x ↔ ForbidsBy root x := by
    intro x
    constructor
    · rintro ⟨y, hy, hn | hn⟩
      · exact ⟨y, hy, hn⟩
      · rw [(part_fresh hy hfresh).fields.mergedNot] at hn; cases hn
    · rintro ⟨y, hy, hn⟩; exact ⟨y, hy, .inl hn⟩
  by_cases hx : ∃ x, ForbidsBy root x
  · obtain ⟨s1, s2, hnode, e1, e2⟩ := parseSchema_root hroot hparse herr
    have hc : EveryPart Conjunctive root := fun y hy =>
      ⟨(hplain y hy).1, (hplain y hy).2.1, (hplain y hy).2.2, (part_fresh hy hfresh).fields.constraints⟩
    obtain ⟨hclear, -⟩ := parseRec_clear fuel root g s1 s2 hc (fun x h => hneg x ((hN x).1 h))
      (by obtain ⟨x, h⟩ := hx; exact ⟨x, (hN x).2 h⟩) (by rw [e1, e2]) (.inr hnode)
    rcases hclear _ _ _ _ _ hgen hcut with h | h
    · refine .inl fun x hx => ?_
      obtain ⟨h1, h2⟩ := h x ((hN x).2 hx)
      exact ⟨h1, fun a b => h2 a (fun z hz => b z ((hN z).1 hz))⟩
    · exact .inr h
  · exact .inl fun x h => absurd ⟨x, h⟩ hx

/-- Two negations of different kinds, collected from two members of an `allOf`:
`{"type": "object", "properties": {"a": {"type": "null"}, "b": {"type": "null"}, "c": {"type": "null"}},
"allOf": [{"not": {"required": ["a"]}}, {"not": {"required": ["b"]}}], "not": {"const": {}}}`. -/
def twoNots : JVal := .obj [("type", .str "object"),
  ("properties", .obj [("a", .obj [("type", .str "null")]), ("b", .obj [("type", .str "null")]), ("c", .obj [("type", .str "null")])]),
  ("allOf", .arr [.obj [("not", .obj [("required", .arr [.str "a"])])], .obj [("not", .obj [("required", .arr [.str "b"])])]]),
  ("not", .obj [("const", .obj [])]), ("required", .arr [.str "c"])]

/-- The schema, decoded. -/
def twoNotsRoot : SchemaNode :=
  let leaf : SchemaNode := { emptyNode with type := some { single := "null" } }
  { emptyNode with
    type := some { single := "object" }
    properties := some [("a", leaf), ("b", leaf), ("c", leaf)]
    allOf := some [{ emptyNode with not := some { emptyNode with required := some ["a"] } },
      { emptyNode with not := some { emptyNode with required := some ["b"] } }]
    not := some { emptyNode with const := some (.obj []) }
    required := some ["c"] }

set_option maxHeartbeats 4000000 in
theorem twoNots_decodes : decodeNode twoNots = some twoNotsRoot := by rfl

theorem twoNots_parts {y : SchemaNode} (h : Part twoNotsRoot y) : y = twoNotsRoot ∨
    y = { emptyNode with not := some { emptyNode with required := some ["a"] } } ∨
    y = { emptyNode with not := some { emptyNode with required := some ["b"] } } := by
  cases h with
  | self => exact .inl rfl
  | member hl hx hp =>
    cases hl
    rcases List.mem_cons.1 hx with rfl | hx
    · exact .inr (.inl (part_flat rfl hp))
    · rw [List.mem_singleton] at hx; subst hx; exact .inr (.inr (part_flat rfl hp))

/-- The hypotheses on the schema hold. -/
example : decodeNode twoNots = some twoNotsRoot ∧
    EveryPart (fun y => y.ref = none ∧ y.oneOf = none ∧ y.anyOf = none) twoNotsRoot ∧
    (∀ x, ForbidsBy twoNotsRoot x → x.ref = none ∧ x.allOf = none ∧ x.not = none) ∧
    ForbidsBy twoNotsRoot { emptyNode with required := some ["a"] } ∧
    ForbidsBy twoNotsRoot { emptyNode with required := some ["b"] } ∧
    ForbidsBy twoNotsRoot { emptyNode with const := some (.obj []) } := by
  refine ⟨twoNots_decodes, ?_, ?_, ⟨_, .member rfl (.head _) (.self _), rfl⟩,
    ⟨_, .member rfl (.tail _ (.head _)) (.self _), rfl⟩, ⟨_, .self _, rfl⟩⟩
  · intro y hy
    rcases twoNots_parts hy with rfl | rfl | rfl <;> exact ⟨rfl, rfl, rfl⟩
  · rintro x ⟨y, hy, hx⟩
    rcases twoNots_parts hy with rfl | rfl | rfl <;> cases hx <;> exact ⟨rfl, rfl, rfl⟩

/-- It parses without errors and an object with `c` only is generated. -/
example : quietlyYields twoNots (.obj [("c", .null)]) = true := by decide +kernel

/-! ## Merging schemas that carry exclusions

When a negation speaks about properties or items, the exclusions are left on the schemas of those (not.go 653-666).  Such
schemas are merged with others later, for example those of `items` and `contains` (array.go 200-206). -/

theorem addStrings_mem {old new : List String} {w : String} : w ∈ addStrings old new ↔ w ∈ old ∨ w ∈ new := by
  constructor
  · unfold addStrings
    induction new generalizing old with
    | nil => intro h; exact .inl h
    | cons v t ih =>
      simp only [List.foldl_cons]
      intro h
      split at h
      · rcases ih h with h | h
        · exact .inl h
        · exact .inr (.tail _ h)
      · rcases ih h with h | h
        · rcases List.mem_append.1 h with h | h
          · exact .inl h
          · exact .inr (List.mem_singleton.1 h ▸ .head _)
        · exact .inr (.tail _ h)
  · rintro (h | h)
    · exact addStrings_old h
    · exact addStrings_new h

theorem addValues_mem {old new : List JVal} {w : JVal} (h : w ∈ addValues old new) : w ∈ old ∨ w ∈ new := by
  unfold addValues at h
  induction new generalizing old with
  | nil => exact .inl h
  | cons v t ih =>
    simp only [List.foldl_cons] at h
    split at h
    · rcases ih h with h | h
      · exact .inl h
      · exact .inr (.tail _ h)
    · rcases ih h with h | h
      · rcases List.mem_append.1 h with h | h
        · exact .inl h
        · exact .inr (List.mem_singleton.1 h ▸ .head _)
      · exact .inr (.tail _ h)

theorem exclusions_merge {F : FP} {rec : MergeRec} {m n r : SchemaNode} (f : MergedFields F rec m n r)
    (mt : String → String → Prop) (fm : String → JVal → Prop) (v : JVal) :
    ExclusionsAllow mt fm v r ↔ ExclusionsAllow mt fm v m ∧ ExclusionsAllow mt fm v n := by
  unfold ExclusionsAllow
  rw [f.constraints]
  cases hm : m.constraints with
  | none => cases hn : n.constraints <;> simp [mergeConstraints]
  | some a =>
    cases hn : n.constraints with
    | none => simp [mergeConstraints]
    | some b =>
      simp only [mergeConstraints, Option.some.injEq, forall_eq', ConstraintColl.merge, addStrings_mem, List.mem_append]
      constructor
      · rintro ⟨h1, h2, h3, h4⟩
        refine ⟨⟨fun p hp => h1 p (.inl hp), fun p hp => h2 p (.inl hp), fun w hw => h3 w (addValues_mem_old hw),
          fun p hp => h4 p (.inl hp)⟩, ⟨fun p hp => h1 p (.inr hp), fun p hp => h2 p (.inr hp), fun w hw => ?_,
          fun p hp => h4 p (.inr hp)⟩⟩
        by_contra hc
        obtain ⟨w', h5, h6⟩ := addValues_jeq (old := a.notValues) hw (Bool.not_eq_false _ ▸ hc)
        rw [h3 w' h5] at h6
        cases h6
      · rintro ⟨⟨h1, h2, h3, h4⟩, ⟨k1, k2, k3, k4⟩⟩
        exact ⟨fun p hp => hp.elim (h1 p) (k1 p), fun p hp => hp.elim (h2 p) (k2 p),
          fun w hw => (addValues_mem hw).elim (h3 w) (k3 w), fun p hp => hp.elim (h4 p) (k4 p)⟩

/-- **C67 (merging).** The exclusions of a merged schema allow a value exactly when the exclusions of every merged schema
do: none is lost and none is added. -/
theorem C67_merging_keeps_exclusions {k : Nat} {nodes : List SchemaNode} {r : SchemaNode} {s s' : PSt}
    (hr : ∀ n ∈ nodes, RefFree n) (h : mergeNodes c k nodes s = .ok r s')
    (mt : String → String → Prop) (fm : String → JVal → Prop) (v : JVal) :
    EveryPart (ExclusionsAllow mt fm v) r ↔ ∀ n ∈ nodes, EveryPart (ExclusionsAllow mt fm v) n :=
  Conj.iff (Conj.simple nofun (fun _ => Iff.rfl) (fun _ _ _ _ f => exclusions_merge f mt fm v)) hr h

/-- Two schemas with exclusions of different kinds, one of them below an `allOf`. -/
example : ∃ r s', mergeNodes demoEnv 5
      [{ constraints := some { notRegex := ["a"], notValues := [.num 1] } },
        { allOf := some [{ constraints := some { notRegex := ["b"], mustNotHave := ["c"] } }] }]
      emptyPSt = .ok r s' ∧ (r.allOf.isNone && r.constraints.any fun e =>
        decide (e.notRegex.length = 2) && decide (e.notValues.length = 1) && decide (e.mustNotHave = ["c"])) = true :=
  Res.witness (by decide +kernel)

end Chaff
