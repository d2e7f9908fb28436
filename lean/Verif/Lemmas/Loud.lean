import Verif.Spec.Truncate
import Verif.Lemmas.PKeeps
import Verif.Lemmas.PTop
import Verif.Lemmas.Compiles
import Verif.Props.Parser
/-!
# Computations of the parser that report

`Loud c d m bad`: started at depth `d`, the computation `m` records an error or ends with a `bad` result.
-/

namespace Chaff
open Comp

def Loud {α : Type} (d : Int) (m : P α) (bad : α → Prop) : Prop :=
  ∀ s a s', s.depth = d → m s = .ok a s' → bad a ∨ s.errors.length < s'.errors.length

theorem Ev.errs {c : PEnv} {s s' : PSt} (h : Ev c s s') : s.errors.length ≤ s'.errors.length := by
  obtain ⟨l, hl, _⟩ := h.errors
  rw [hl]
  simp

section
variable {α β : Type} {c : PEnv} {d : Int}

theorem Loud.first {m : P α} {f : α → P β} {bad : α → Prop} {bad' : β → Prop} (hk : Keeps c m) (h : Loud d m bad)
    (hf : ∀ a, Keeps c (f a)) (hb : ∀ a, bad a → Loud d (f a) bad') : Loud d (m >>= f) bad' := by
  intro s b s' hd hs
  obtain ⟨a, s1, h1, h2⟩ := bind_ok.1 hs
  have E := hk _ _ _ h1
  have E' := hf _ _ _ _ h2
  rcases h s a s1 hd h1 with hbad | hlt
  · rcases hb a hbad s1 b s' (by rw [E.depth, hd]) h2 with h' | h'
    · exact .inl h'
    · exact .inr (lt_of_le_of_lt E.errs h')
  · exact .inr (lt_of_lt_of_le hlt E'.errs)

theorem Loud.then {m : P α} {f : α → P β} {bad' : β → Prop} (hk : Keeps c m) (hf : ∀ a, Loud d (f a) bad') :
    Loud d (m >>= f) bad' := by
  intro s b s' hd hs
  obtain ⟨a, s1, h1, h2⟩ := bind_ok.1 hs
  have E := hk _ _ _ h1
  rcases hf a s1 b s' (by rw [E.depth, hd]) h2 with h' | h'
  · exact .inl h'
  · exact .inr (lt_of_le_of_lt E.errs h')

theorem Loud.bad {a : α} {bad : α → Prop} (h : bad a) : Loud d (pure a : P α) bad := by
  intro s b s' _ hs
  obtain ⟨rfl, rfl⟩ := pure_ok.1 hs
  exact .inl h

theorem Loud.mono {m : P α} {bad bad' : α → Prop} (h : Loud d m bad) (hb : ∀ a, bad a → bad' a) : Loud d m bad' := by
  intro s a s' hd hs
  rcases h s a s' hd hs with h | h
  · exact .inl (hb _ h)
  · exact .inr h

theorem loud_addErrorSub (sub : String) (e : Err) (bad : Unit → Prop) : Loud d (addErrorSub sub e) bad := by
  intro s a s' _ h
  unfold addErrorSub at h
  rw [modS_apply] at h
  cases h
  exact .inr (by simp)

/-- A failed result. -/
def Failed (r : Gen × Option Err) : Prop := r.2 ≠ none

/-- An error. -/
def IsError {α : Type} (x : Except Err α) : Prop := ∃ e, x = .error e

theorem loud_nullErr (e : Err) : Loud d (nullErr e) Failed := Loud.bad nofun

theorem loud_parseInScope {r : PRec} (hr : KeepsRec c r) {scope : String} {n : SchemaNode} {src : List SchemaNode}
    {bad : Gen × Option Err → Prop} (h : Loud d (r.node n) bad) : Loud d (parseInScope c r scope n src) bad := by
  intro s a s' hd hs
  unfold parseInScope at hs
  obtain ⟨_, s1, h1, h2⟩ := bind_ok.1 hs
  obtain ⟨k, s2, h3, h4⟩ := bind_ok.1 h2
  obtain ⟨g, s3, h5, h6⟩ := bind_ok.1 h4
  obtain ⟨_, s4, h7, h8⟩ := bind_ok.1 h6
  obtain ⟨_, s5, h9, h10⟩ := bind_ok.1 h8
  obtain ⟨rfl, rfl⟩ := pure_ok.1 h10
  unfold pushPath at h1
  rw [modS_apply] at h1
  cases h1
  obtain ⟨keys, _, _, E⟩ := pushSources_ev src h3
  have e2 : s.errors.length ≤ s2.errors.length := E.errs
  have d2 : s2.depth = s.depth := E.depth
  have e4 : s4.errors = s3.errors := popSources_errors k _ _ _ h7
  have e5 : s5.errors = s4.errors := popPath_errors _ _ _ _ h9
  rcases h s2 g s3 (by rw [d2, hd]) h5 with hb | hl
  · exact .inl hb
  · exact .inr (by rw [e5, e4]; omega)

theorem loud_asSub {m : PR} (hk : Keeps c m) (h : Loud d m Failed) : Loud d (asSub m) IsError := by
  unfold asSub
  refine Loud.first hk h (fun r => ?_) (fun r hr => ?_)
  · split
    · exact Keeps.pure _
    · exact Keeps.pure _
  · unfold Failed at hr
    cases h2 : r.2 with
    | none => exact absurd h2 hr
    | some e => exact Loud.bad ⟨e, rfl⟩

theorem loud_parseTuple {r : PRec} (hr : KeepsRec c r) {m : SchemaNode} (h : Loud d (r.node m) Failed) :
    ∀ (l : List SchemaNode) (i : Nat), m ∈ l → Loud d (parseTuple c r i l) IsError
  | [], _, hm => by cases hm
  | x :: t, i, hm => by
    unfold parseTuple
    have hrest : ∀ (g : Gen × Option Err), Keeps c (match g.2 with
        | some e => (pure (.error e) : P (Except Err (List Gen)))
        | none => do
          let rest ← parseTuple c r (i + 1) t
          match rest with
          | .error e => pure (.error e)
          | .ok l => pure (.ok (g.1 :: l))) := by
      intro g
      split
      · exact Keeps.pure _
      · refine Keeps.bind (keeps_parseTuple hr _ _) fun rest => ?_
        split <;> exact Keeps.pure _
    rcases List.mem_cons.1 hm with rfl | hm
    · refine Loud.first (keeps_parseInScope hr _ _ _) (loud_parseInScope hr h) hrest (fun g hg => ?_)
      unfold Failed at hg
      cases h2 : g.2 with
      | none => exact absurd h2 hg
      | some e => exact Loud.bad ⟨e, rfl⟩
    · refine Loud.then (keeps_parseInScope hr _ _ _) fun g => ?_
      split
      · exact Loud.bad ⟨_, rfl⟩
      · refine Loud.first (keeps_parseTuple hr _ _) (loud_parseTuple hr h t (i + 1) hm) (fun rest => ?_) (fun rest he => ?_)
        · split <;> exact Keeps.pure _
        · obtain ⟨e, rfl⟩ := he
          exact Loud.bad ⟨e, rfl⟩

/-- The steps of `parseArray`: as soon as one of them is loud, the whole is. -/
theorem loud_step {x : P (Except Err α)} {k : Except Err α → PR} (hx : Keeps c x) (h : Loud d x IsError)
    (hf : ∀ a, Keeps c (k (.ok a))) (he : ∀ e, k (.error e) = nullErr e := by intros; rfl) : Loud d (x >>= k) Failed := by
  refine Loud.first hx h (fun y => ?_) (fun y hy => ?_)
  · cases y with
    | error e => rw [he]; exact keeps_nullErr _
    | ok a => exact hf _
  · obtain ⟨e, rfl⟩ := hy
    rw [he]
    exact loud_nullErr e

theorem loud_next {x : P (Except Err α)} {k : Except Err α → PR} (hx : Keeps c x) (hf : ∀ a, Loud d (k (.ok a)) Failed)
    (he : ∀ e, k (.error e) = nullErr e := by intros; rfl) : Loud d (x >>= k) Failed := by
  refine Loud.then hx fun y => ?_
  cases y with
  | error e => rw [he]; exact loud_nullErr _
  | ok a => exact hf _

theorem keeps_step {x : P (Except Err α)} {k : Except Err α → PR} (hx : Keeps c x) (hf : ∀ a, Keeps c (k (.ok a)))
    (he : ∀ e, k (.error e) = nullErr e := by intros; rfl) : Keeps c (x >>= k) := by
  refine Keeps.bind hx fun y => ?_
  cases y with
  | error e => rw [he]; exact keeps_nullErr _
  | ok a => exact hf _

/-- An array with a sub-schema whose parse is loud. -/
theorem loud_parseArray {r : PRec} (hr : KeepsRec c r) {n : SchemaNode}
    (h : (∃ m, ItemSchema n m ∧ Loud d (r.node m) Failed) ∨ (n.contains ≠ none ∧ ∀ m, Loud d (r.node m) Failed)) :
    Loud d (parseArray c r n) Failed := by
  unfold parseArray
  cases checkArray n with
  | some e => exact loud_nullErr e
  | none =>
    dsimp only
    have k1 := keeps_parseItems hr n.items
    have k2 := keeps_parseOrFalse hr "/additionalItems" n.additionalItems
    have k3 := keeps_parseContains hr n
    have k4 := keeps_parseTuple hr (tupleNodes n) 0
    have k5 := keeps_parseOrFalse hr "/unevaluatedItems" (unevaluatedSchema n)
    have orFalse : ∀ (scope : String) (x : Option (NodeOrFalse SchemaNode)) (e : NodeOrFalse SchemaNode) (m : SchemaNode),
        x = some e → e.schema = some m → Loud d (r.node m) Failed → Loud d (parseOrFalse c r scope x) IsError := by
      rintro scope x e m rfl hm hl
      unfold parseOrFalse
      dsimp only
      rw [hm]
      exact loud_asSub (keeps_parseInScope hr _ _ _) (loud_parseInScope hr hl)
    rcases h with ⟨m, hm, hl⟩ | ⟨hcon, hl⟩
    · cases hm with
      | items e he hf hm =>
        refine loud_step k1 ?_ fun a1 => keeps_step k2 fun a2 => keeps_step k3 fun a3 => keeps_step k4 fun a4 =>
          keeps_step k5 fun a5 => keeps_okGen (.arr (buildArray n a1 a2 a3 a5 a4))
        unfold parseItems
        rw [he]
        dsimp only
        rw [hf, hm]
        exact loud_asSub (keeps_parseInScope hr _ _ _) (loud_parseInScope hr hl)
      | additional e he hm =>
        exact loud_next k1 fun a1 => loud_step k2 (orFalse _ _ e m he hm hl) fun a2 => keeps_step k3 fun a3 =>
          keeps_step k4 fun a4 => keeps_step k5 fun a5 => keeps_okGen (.arr (buildArray n a1 a2 a3 a5 a4))
      | prefixItem l he hm =>
        refine loud_next k1 fun a1 => loud_next k2 fun a2 => loud_next k3 fun a3 => loud_step k4 ?_ fun a4 =>
          keeps_step k5 fun a5 => keeps_okGen (.arr (buildArray n a1 a2 a3 a5 a4))
        refine loud_parseTuple hr hl _ _ ?_
        unfold tupleNodes
        rw [he]
        cases l with
        | nil => cases hm
        | cons x t => exact hm
      | unevaluated e he hf hm =>
        refine loud_next k1 fun a1 => loud_next k2 fun a2 => loud_next k3 fun a3 => loud_next k4 fun a4 =>
          loud_step k5 (orFalse _ _ e m ?_ hm hl) fun a5 => keeps_okGen (.arr (buildArray n a1 a2 a3 a5 a4))
        unfold unevaluatedSchema
        rw [he]
        dsimp only
        rw [hf]
        rfl
    · refine loud_next k1 fun a1 => loud_next k2 fun a2 => loud_step k3 ?_ fun a3 => keeps_step k4 fun a4 =>
        keeps_step k5 fun a5 => keeps_okGen (.arr (buildArray n a1 a2 a3 a5 a4))
      cases hx : n.contains with
      | none => exact absurd hx hcon
      | some x =>
        have hu : parseContains c r n = (mergedContains c r.fuel n.items x >>= fun m =>
            asSub (parseInScope c r "/contains" m [])) := by
          unfold parseContains
          rw [hx]
        rw [hu]
        refine Loud.then (c := c) ?_ fun m => loud_asSub (keeps_parseInScope hr _ _ _) (loud_parseInScope hr (hl m))
        unfold mergedContains
        split
        · exact Keeps.pure _
        · split
          · exact Keeps.pure _
          · exact Keeps.bind (keeps_mergeNodes _ _) fun _ => Keeps.pure _

theorem loud_parseProps {r : PRec} (hr : KeepsRec c r) {m : SchemaNode} (h : Loud d (r.node m) (fun _ => False)) :
    ∀ (l : List (String × SchemaNode)) (k : String), (k, m) ∈ l → Loud d (parseProps c r l) (fun _ => False)
  | [], _, hm => by cases hm
  | (k0, x) :: t, k, hm => by
    unfold parseProps
    rcases List.mem_cons.1 hm with he | hm
    · cases he
      exact Loud.first (keeps_parseInScope hr _ _ _) (loud_parseInScope hr h)
        (fun g => Keeps.bind (keeps_parseProps hr _) fun _ => Keeps.pure _) (fun _ hf => hf.elim)
    · exact Loud.then (keeps_parseInScope hr _ _ _) fun g =>
        Loud.first (keeps_parseProps hr _) (loud_parseProps hr h t k hm) (fun _ => Keeps.pure _) (fun _ hf => hf.elim)

theorem loud_parsePatProps {r : PRec} (hr : KeepsRec c r) {m : SchemaNode} (h : Loud d (r.node m) (fun _ => False)) :
    ∀ (l : List (String × SchemaNode)) (k : String), (k, m) ∈ l → Loud d (parsePatProps c r l) (fun _ => False)
  | [], _, hm => by cases hm
  | (k0, x) :: t, k, hm => by
    have kp : Keeps c (patternRegex c k0) := by
      unfold patternRegex
      refine Keeps.bind (keeps_buildRegex _ _) fun rx => ?_
      split
      · exact Keeps.pure _
      · exact Keeps.bind (keeps_addErrorSub _ _ _) fun _ => Keeps.pure _
    unfold parsePatProps
    rcases List.mem_cons.1 hm with he | hm
    · cases he
      exact Loud.first (keeps_parseInScope hr _ _ _) (loud_parseInScope hr h)
        (fun g => Keeps.bind kp fun _ => Keeps.bind (keeps_parsePatProps hr _) fun _ => Keeps.pure _) (fun _ hf => hf.elim)
    · exact Loud.then (keeps_parseInScope hr _ _ _) fun g => Loud.then kp fun _ =>
        Loud.first (keeps_parsePatProps hr _) (loud_parsePatProps hr h t k hm) (fun _ => Keeps.pure _) (fun _ hf => hf.elim)

theorem loud_parseObject {r : PRec} (hr : KeepsRec c r) {n m : SchemaNode} (hm : MemberSchema n m)
    (h : Loud d (r.node m) (fun _ => False)) : Loud d (parseObject c r n) Failed := by
  unfold parseObject
  cases checkObject n with
  | some e => exact loud_nullErr e
  | none =>
    dsimp only
    have k1 := keeps_parsePatProps hr (getZeroIfNil n.patternProperties [])
    have k2 := keeps_parseProps hr (getZeroIfNil n.properties [])
    have k3 := keeps_parseAddProps hr n.additionalProperties
    cases hm with
    | property ps k he hm =>
      refine Loud.then k1 fun _ => Loud.first k2 (loud_parseProps hr h _ k ?_)
        (fun _ => Keeps.bind k3 fun _ => keeps_okGen _) (fun _ hf => hf.elim)
      rw [he]
      exact hm
    | patternProperty ps k he hm =>
      refine Loud.first k1 (loud_parsePatProps hr h _ k ?_)
        (fun _ => Keeps.bind k2 fun _ => Keeps.bind k3 fun _ => keeps_okGen _) (fun _ hf => hf.elim)
      rw [he]
      exact hm
    | additional e he hf hm =>
      refine Loud.then k1 fun _ => Loud.then k2 fun _ => Loud.first k3 (bad := fun _ => False) ?_
        (fun _ => keeps_okGen _) (fun _ hf => hf.elim)
      unfold parseAddProps
      rw [he]
      dsimp only
      rw [hf, hm]
      exact Loud.first (keeps_parseInScope hr _ _ _) (loud_parseInScope hr h) (fun _ => Keeps.pure _) (fun _ hf => hf.elim)

theorem loud_parseAllOf {r : PRec} (hr : KeepsRec c r) (h : ∀ m, Loud d (r.node m) Failed) (n : SchemaNode)
    (l : List SchemaNode) : Loud d (parseAllOf c r n l) Failed := by
  unfold parseAllOf
  dsimp only
  refine Loud.then (keeps_mergeNodes _ _) fun m =>
    Loud.first (keeps_parseInScope hr _ _ _) (loud_parseInScope hr (h m)) (fun g => ?_) (fun g hg => ?_)
  · split
    · exact keeps_nullErr _
    · exact keeps_okGen _
  · unfold Failed at hg
    cases h2 : g.2 with
    | none => exact absurd h2 hg
    | some e => exact loud_nullErr e

theorem loud_parseBranch {r : PRec} (hr : KeepsRec c r) (h : ∀ m, Loud d (r.node m) Failed) (n : SchemaNode) (b : Bool)
    (i : Nat) (sub : SchemaNode) : Loud d (parseBranch c r n b i sub) (fun _ => False) := by
  unfold parseBranch
  refine Loud.then (keeps_mergeNodes _ _) fun base => ?_
  dsimp only
  refine Loud.then (keeps_mergeNodes _ _) fun m =>
    Loud.first (keeps_parseInScope hr _ _ _) (loud_parseInScope hr (h m)) (fun g => ?_) (fun g hg => ?_)
  · split
    · exact Keeps.bind (keeps_addErrorSub _ _ _) fun _ => Keeps.pure _
    · exact Keeps.pure _
  · unfold Failed at hg
    cases h2 : g.2 with
    | none => exact absurd h2 hg
    | some e =>
      exact Loud.first (keeps_addErrorSub _ _ _) (loud_addErrorSub _ _ (fun _ => False)) (fun _ => Keeps.pure (c := c) _)
        (fun _ hf => hf.elim)

theorem loud_parseBranches {r : PRec} (hr : KeepsRec c r) (h : ∀ m, Loud d (r.node m) Failed) (n : SchemaNode) (b : Bool)
    (i : Nat) (l : List SchemaNode) : Loud d (parseBranches c r n b i l) (fun gs => gs = []) := by
  cases l with
  | nil => exact Loud.bad rfl
  | cons x t =>
    unfold parseBranches
    exact Loud.first (keeps_parseBranch hr _ _ _ _) (loud_parseBranch hr h n b i x)
      (fun _ => Keeps.bind (keeps_parseBranches hr _ _ _ _) fun _ => Keeps.pure _) (fun _ hf => hf.elim)

theorem loud_parseCombination {r : PRec} (hr : KeepsRec c r) (h : ∀ m, Loud d (r.node m) Failed) (n : SchemaNode) :
    Loud d (parseCombination c r n) Failed := by
  unfold parseCombination
  dsimp only
  by_cases h1 : 1 < (getZeroIfNil n.oneOf []).length
  · cases ho : getZeroIfNil n.oneOf [] with
    | nil => rw [ho] at h1; cases h1
    | cons x t =>
      rw [ho] at h1
      rw [if_pos (by simp)]
      have hd : decide (0 < (x :: t).length) = true := by simp
      unfold parseBranches
      refine Loud.first (c := c) (bad := fun _ => False) ?_ ?_ (fun gs => ?_) (fun _ hf => hf.elim)
      · exact Keeps.bind (keeps_parseBranch hr _ _ _ _) fun _ => Keeps.bind (keeps_parseBranches hr _ _ _ _) fun _ => Keeps.pure _
      · exact Loud.first (keeps_parseBranch hr _ _ _ _) (loud_parseBranch hr h n _ 0 x)
          (fun _ => Keeps.bind (keeps_parseBranches hr _ _ _ _) fun _ => Keeps.pure _) (fun _ hf => hf.elim)
      · rw [if_pos h1]
        exact Keeps.bind (keeps_flattenAll _ _) fun _ => Keeps.bind (keeps_oneOfValidators _ _) fun _ => keeps_okGen _
  · refine Loud.first (keeps_parseBranches hr _ _ _ _) (loud_parseBranches hr h n _ 0 _) (fun gs => ?_) (fun gs hg => ?_)
    · rw [if_neg h1]
      split
      · exact keeps_okGen _
      · exact keeps_nullErr _
      · exact keeps_okGen _
    · rw [if_neg h1, hg]
      exact loud_nullErr _

theorem loud_parseIfBody {r : PRec} (hr : KeepsRec c r) (h : ∀ m, Loud d (r.node m) Failed) (scope : String)
    (n b : SchemaNode) : Loud d (parseIfBody c r scope n (some b)) (fun _ => False) := by
  unfold parseIfBody
  refine Loud.then (keeps_mergeNodes _ _) fun m =>
    Loud.first (keeps_parseInScope hr _ _ _) (loud_parseInScope hr (h m)) (fun g => ?_) (fun g hg => ?_)
  · split
    · exact Keeps.bind (keeps_warnField _ _ _) fun _ => Keeps.pure _
    · exact Keeps.pure _
  · unfold Failed at hg
    cases h2 : g.2 with
    | none => exact absurd h2 hg
    | some e =>
      exact Loud.first (keeps_warnField c _ _) (loud_addErrorSub _ _ (fun _ => False)) (fun _ => Keeps.pure (c := c) _)
        (fun _ hf => hf.elim)

theorem loud_compileIf {r : PRec} (hr : KeepsRec c r) (h : ∀ m, Loud d (r.node m) Failed) (n : SchemaNode) (i : Nat)
    (st : IfStmt SchemaNode) : Loud d (compileIf c r n i st) IsError := by
  unfold compileIf
  cases st.ifN with
  | none => exact Loud.bad ⟨_, rfl⟩
  | some cond =>
    dsimp only
    by_cases hb : st.thenN.isNone ∧ st.elseN.isNone
    · rw [if_pos hb]
      exact Loud.bad ⟨_, rfl⟩
    · rw [if_neg hb]
      refine Loud.then (Keeps.gets (c := c) _) fun path => Loud.then (keeps_validatorFor c _ _) fun v => ?_
      cases v with
      | none => exact Loud.bad ⟨_, rfl⟩
      | some f =>
        dsimp only
        cases ht : st.thenN with
        | some t =>
          exact Loud.first (keeps_parseIfBody hr _ _ _) (loud_parseIfBody hr h _ _ _)
            (fun _ => Keeps.bind (keeps_parseIfBody hr _ _ _) fun _ => Keeps.pure _) (fun _ hf => hf.elim)
        | none =>
          cases he : st.elseN with
          | none => exact absurd ⟨by rw [ht]; rfl, by rw [he]; rfl⟩ hb
          | some e =>
            exact Loud.then (keeps_parseIfBody hr _ _ _) fun _ =>
              Loud.first (keeps_parseIfBody hr _ _ _) (loud_parseIfBody hr h _ _ _) (fun _ => Keeps.pure _)
                (fun _ hf => hf.elim)

theorem loud_compileIfs {r : PRec} (hr : KeepsRec c r) (h : ∀ m, Loud d (r.node m) Failed) (n : SchemaNode) (i : Nat)
    (l : List (IfStmt SchemaNode)) (hl : l ≠ []) : Loud d (compileIfs c r n i l) (fun _ => False) := by
  cases l with
  | nil => exact absurd rfl hl
  | cons st t =>
    unfold compileIfs
    refine Loud.first (keeps_compileIf hr _ _ _) (loud_compileIf hr h n i st) (fun x => ?_) (fun x hx => ?_)
    · split
      · exact Keeps.bind (keeps_addErrorSub _ _ _) fun _ => keeps_compileIfs hr _ _ _
      · exact Keeps.bind (keeps_compileIfs hr _ _ _) fun _ => Keeps.pure _
    · obtain ⟨e, rfl⟩ := hx
      exact Loud.first (keeps_addErrorSub c _ _) (loud_addErrorSub _ _ (fun _ => False))
        (fun _ => keeps_compileIfs hr _ _ _) (fun _ hf => hf.elim)

theorem loud_parseIf {r : PRec} (hr : KeepsRec c r) (h : ∀ m, Loud d (r.node m) Failed) (n : SchemaNode)
    (hn : n.ifN ≠ none ∨ n.mergedIf ≠ []) : Loud d (parseIf c r n) Failed := by
  unfold parseIf
  refine Loud.then (Keeps.gets (c := c) _) fun path => ?_
  dsimp only
  refine Loud.then (hr.schema _) fun g => ?_
  have hst : (if n.ifN.isSome then n.mergedIf ++ [newIfStatement n path] else n.mergedIf) ≠ [] := by
    split
    · simp
    · rename_i hi
      rcases hn with hn | hn
      · cases hf : n.ifN with
        | none => exact absurd hf hn
        | some _ => rw [hf] at hi; exact absurd rfl hi
      · exact hn
  split
  · exact loud_nullErr _
  · rw [if_neg (by rw [List.length_eq_zero_iff]; exact hst)]
    refine Loud.first (keeps_compileIfs hr _ _ _) (loud_compileIfs hr h _ 0 _ hst) (fun cs => ?_) (fun _ hf => hf.elim)
    split
    · exact Keeps.bind (keeps_addErrorSub _ _ _) fun _ => keeps_okGen _
    · exact keeps_okGen _

/-! ## Nodes -/

/-- A node below the limit fails. -/
theorem loud_cut (fuel : Nat) (n : SchemaNode) (hd : c.maxParseDepth ≤ d) : Loud d ((parseRec c fuel).node n) Failed := by
  intro s a s' hs h
  cases fuel with
  | zero => cases h
  | succ fuel =>
    rw [C47_too_deep c fuel n s (by rw [hs]; exact hd)] at h
    cases h
    exact .inl nofun

/-- A node whose keywords report records an error. -/
theorem loud_node (fuel : Nat) (n : SchemaNode) (hd : d < c.maxParseDepth)
    (h : Loud (d + 1) (parseSchemaStep c (parseRec c fuel) n) Failed) :
    Loud d ((parseRec c (fuel + 2)).node n) (fun _ => False) := by
  intro s a s' hs hrun
  have h0 : parseNodeStep c (parseRec c (fuel + 1)).schema n s = .ok a s' := hrun
  unfold parseNodeStep at h0
  obtain ⟨_, s1, h1, h2⟩ := bind_ok.1 h0
  rw [modS_apply] at h1
  injection h1 with _ h1
  subst h1
  obtain ⟨dd, s2, h3, h4⟩ := bind_ok.1 h2
  unfold gets at h3
  injection h3 with h3 h3'
  subst h3'
  dsimp only at h3
  rw [if_neg (by rw [← h3]; omega)] at h4
  obtain ⟨r, s4, h5, h6⟩ := bind_ok.1 h4
  obtain ⟨_, s5, h7, h8⟩ := bind_ok.1 h6
  obtain ⟨_, s6, h9, h10⟩ := bind_ok.1 h8
  obtain ⟨_, s7, h11, h12⟩ := bind_ok.1 h10
  have kr : Keeps c (registerNode n (nilToNull r.1)) := by
    unfold registerNode
    refine Keeps.bind ?_ fun _ => keeps_addReference _ _
    split
    · exact keeps_addIdReference _ _ _
    · exact Keeps.pure _
  have e56 := (kr _ _ _ h9).errs
  rw [modS_apply] at h11
  injection h11 with _ h11
  have e7 : s'.errors = s7.errors := by
    cases hcc : n.constraints with
    | some cc =>
      rw [hcc] at h12
      cases h12
      rfl
    | none =>
      rw [hcc] at h12
      cases h12
      rfl
  have e67 : s7.errors = s6.errors := by rw [← h11]
  have hsch : parseSchemaStep c (parseRec c fuel) n { s with depth := s.depth + 1 } = .ok r s4 := h5
  have k5 := (keeps_parseSchemaStep (keeps_parseRec (c := c) fuel) n) _ _ _ hsch
  right
  rcases h _ _ _ (by dsimp only; omega) hsch with hf | hl
  · unfold Failed at hf
    cases hr2 : r.2 with
    | none => exact absurd hr2 hf
    | some e =>
      rw [hr2] at h7
      have : s5.errors.length = s4.errors.length + 1 := by
        cases h7
        rfl
      have k5' : s.errors.length ≤ s4.errors.length := k5.errs
      rw [e7, e67]
      omega
  · have e45 : s4.errors.length ≤ s5.errors.length := by
      cases hr2 : r.2 with
      | some e =>
        rw [hr2] at h7
        exact (keeps_addError c e _ _ _ h7).errs
      | none =>
        rw [hr2] at h7
        exact ((Keeps.pure (c := c) ()) _ _ _ h7).errs
    have : s.errors.length < s4.errors.length := hl
    rw [e7, e67]
    omega

/-- The keywords of an object are read by the parser of objects. -/
theorem step_object (r : PRec) {n : SchemaNode} (h : ReadsObject n) : parseSchemaStep c r n = parseObject c r n := by
  rcases h with h | ⟨h, t, ht, hs⟩
  · exact C55_dispatch c r n _ h
  · rw [C55_dispatch c r n _ h]
    unfold parserOf parseType
    dsimp only
    rw [ht]
    exact if_pos hs

theorem step_array (r : PRec) {n : SchemaNode} (h : ReadsArray n) : parseSchemaStep c r n = parseArray c r n := by
  rcases h with h | ⟨h, t, ht, hs⟩
  · exact C55_dispatch c r n _ h
  · rw [C55_dispatch c r n _ h]
    unfold parserOf parseType
    dsimp only
    rw [ht]
    have : (getZeroIfNil (some t) {}).single = "array" := hs
    rw [this]
    rfl

/-- The line of conditionals in the precedence. -/
theorem conditional_line {n : SchemaNode} {b a : List (Prop × Reading)} {ln : Prop}
    (he : precedence n = b ++ (ln, .conditional) :: a) (hl : ln) : n.ifN ≠ none ∨ n.mergedIf ≠ [] := by
  have hmem : (ln, Reading.conditional) ∈ precedence n := by rw [he]; simp
  simp only [precedence, List.mem_cons, Prod.mk.injEq, reduceCtorEq, and_false, false_or, and_true, List.not_mem_nil,
    or_false] at hmem
  rw [← hmem]
  exact hl

/-- What lies exactly at the limit is reported. -/
theorem loud_below {k : Nat} {n : SchemaNode} (hb : PartBelow k n) : ∀ (fuel : Nat) (d : Int), d + k = c.maxParseDepth →
    Loud d ((parseRec c fuel).node n) (fun _ => False) := by
  have kr := fun f => keeps_parseRec (c := c) f
  have small : ∀ (n : SchemaNode) (d : Int), d < c.maxParseDepth →
      (∀ fuel, Loud (d + 1) (parseSchemaStep c (parseRec c fuel) n) Failed) →
      ∀ fuel, Loud d ((parseRec c fuel).node n) (fun _ => False) := by
    intro n d hd h fuel
    match fuel with
    | 0 => intro s a s' _ hs; cases hs
    | 1 =>
      intro s a s' hdd hs
      have h0 : parseNodeStep c (parseRec c 0).schema n s = .ok a s' := hs
      unfold parseNodeStep at h0
      obtain ⟨_, s1, h1, h2⟩ := bind_ok.1 h0
      rw [modS_apply] at h1
      injection h1 with _ h1
      subst h1
      obtain ⟨dd, s2, h3, h4⟩ := bind_ok.1 h2
      unfold gets at h3
      injection h3 with h3 h3'
      subst h3'
      dsimp only at h3
      rw [if_neg (by rw [← h3]; omega)] at h4
      obtain ⟨r, s4, h5, h6⟩ := bind_ok.1 h4
      cases h5
    | fuel + 2 => exact loud_node fuel n hd (h fuel)
  induction hb with
  | item h hm =>
    intro fuel d hd
    refine small _ d (by push_cast at hd; omega) (fun f => ?_) fuel
    rw [step_array _ h]
    exact loud_parseArray (kr f) (.inl ⟨_, hm, loud_cut f _ (by push_cast at hd; omega)⟩)
  | contains h hm =>
    intro fuel d hd
    refine small _ d (by push_cast at hd; omega) (fun f => ?_) fuel
    rw [step_array _ h]
    exact loud_parseArray (kr f) (.inr ⟨by rw [hm]; nofun, fun m => loud_cut f _ (by push_cast at hd; omega)⟩)
  | @combined n h =>
    intro fuel d hd
    refine small _ d (by push_cast at hd; omega) (fun f => ?_) fuel
    have hcut : ∀ m, Loud (d + 1) ((parseRec c f).node m) Failed := fun m => loud_cut f _ (by push_cast at hd; omega)
    rcases h with h | h | h
    · rw [C55_dispatch c _ n _ h]
      exact loud_parseAllOf (kr f) hcut _ _
    · rw [C55_dispatch c _ n _ h]
      exact loud_parseCombination (kr f) hcut _
    · have hn : n.ifN ≠ none ∨ n.mergedIf ≠ [] := by
        obtain ⟨b, ln, a, he, hl, hbf⟩ := h
        exact conditional_line he hl
      rw [C55_dispatch c _ n _ h]
      exact loud_parseIf (kr f) hcut _ hn
  | @member k n m h hm hk ih =>
    intro fuel d hd
    refine small _ d (by push_cast at hd; omega) (fun f => ?_) fuel
    rw [step_object _ h]
    exact loud_parseObject (kr f) hm (ih f (d + 1) (by push_cast at hd ⊢; omega))
  | @itemStep k n m h hm hk ih =>
    intro fuel d hd
    refine small _ d (by push_cast at hd; omega) (fun f => ?_) fuel
    rw [step_array _ h]
    exact loud_parseArray (kr f) (.inl ⟨_, hm, (ih f (d + 1) (by push_cast at hd ⊢; omega)).mono (fun _ hf => hf.elim)⟩)

end
end Chaff
