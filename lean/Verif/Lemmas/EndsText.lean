import Verif.Lemmas.EndsParse
import Verif.Lemmas.Decode
import Verif.Spec.Refs
/-!
# Weight of a schema text

`jw e w v` counts `2 * e` for every member and `e` for every item, plus `w r` for every reference in the text.  It bounds
the weight of the decoded schema, and rewriting references does not change it.
-/

namespace Chaff
open Comp

mutual
/-- Weight of a text. -/
def jw (e : Nat) (w : String → Nat) : JVal → Nat
  | .obj m => jwObj e w m
  | .arr _ => 0
  | .null => 0
  | .bool _ => 0
  | .num _ => 0
  | .str _ => 0
termination_by structural v => v
/-- Members of an object. -/
def jwObj (e : Nat) (w : String → Nat) : List (String × JVal) → Nat
  | [] => 0
  | p :: t => jwField e w p + jwObj e w t
termination_by structural l => l
/-- One member. -/
def jwField (e : Nat) (w : String → Nat) : String × JVal → Nat
  | (k, v) => 2 * e + jwMember e w k v
termination_by structural p => p
/-- The value of the member named `k`. -/
def jwMember (e : Nat) (w : String → Nat) (k : String) : JVal → Nat
  | .str s => if k = "$ref" then w s else 0
  | .obj m => jwObj e w m
  | .arr l => jwArr e w l
  | .null => 0
  | .bool _ => 0
  | .num _ => 0
termination_by structural v => v
/-- Items of an array. -/
def jwArr (e : Nat) (w : String → Nat) : List JVal → Nat
  | [] => 0
  | v :: t => e + jw e w v + jwArr e w t
termination_by structural l => l
end

variable {e : Nat} {w : String → Nat}

@[simp] theorem jwObj_nil : jwObj e w [] = 0 := rfl
@[simp] theorem jwObj_cons (k v t) : jwObj e w ((k, v) :: t) = 2 * e + jwMember e w k v + jwObj e w t := rfl
@[simp] theorem jwArr_nil : jwArr e w [] = 0 := rfl
@[simp] theorem jwArr_cons (v t) : jwArr e w (v :: t) = e + jw e w v + jwArr e w t := rfl
theorem jw_le_member (k v) : jw e w v ≤ jwMember e w k v := by
  cases v <;> simp [jw, jwMember]

mutual
theorem jw_zero : ∀ v : JVal, (∀ r ∈ refTexts v, w r = 0) → jw 0 w v = 0
  | .obj m, h => jwObj_zero m h
  | .arr _, _ => rfl
  | .null, _ => rfl
  | .bool _, _ => rfl
  | .num _, _ => rfl
  | .str _, _ => rfl
termination_by structural v => v
theorem jwObj_zero : ∀ m : List (String × JVal), (∀ r ∈ refTextsObj m, w r = 0) → jwObj 0 w m = 0
  | [], _ => rfl
  | p :: t, h => by
    have h1 := jwField_zero p fun r hr => h r (List.mem_append_left _ hr)
    have h2 := jwObj_zero t fun r hr => h r (List.mem_append_right _ hr)
    rw [jwObj]; omega
termination_by structural l => l
theorem jwField_zero : ∀ p : String × JVal, (∀ r ∈ refTextsField p, w r = 0) → jwField 0 w p = 0
  | (k, v), h => by
    have h1 := jwMember_zero k v h
    rw [jwField]; omega
termination_by structural p => p
theorem jwMember_zero (k : String) : ∀ v : JVal, (∀ r ∈ refTextsMember k v, w r = 0) → jwMember 0 w k v = 0
  | .str s, h => by
    rw [jwMember]
    split
    · rename_i hk
      refine h s ?_
      rw [refTextsMember, if_pos hk]; exact List.mem_cons_self ..
    · rfl
  | .obj m, h => jwObj_zero m h
  | .arr l, h => jwArr_zero l h
  | .null, _ => rfl
  | .bool _, _ => rfl
  | .num _, _ => rfl
termination_by structural v => v
theorem jwArr_zero : ∀ l : List JVal, (∀ r ∈ refTextsArr l, w r = 0) → jwArr 0 w l = 0
  | [], _ => rfl
  | v :: t, h => by
    have h1 := jw_zero v fun r hr => h r (List.mem_append_left _ hr)
    have h2 := jwArr_zero t fun r hr => h r (List.mem_append_right _ hr)
    rw [jwArr]; omega
termination_by structural l => l
end

/-! ## Decoding -/

/-- Weight of a decoded keyword value. -/
def slotWt (e : Nat) (w : String → Nat) : SubVal → Nat
  | .map m => wtOM e w m
  | .node n => wtIf e w n
  | .nodes l => wtOL e w l
  | .orFalse x => wtOF e w x
  | .items x => wtOI e w x

theorem wt_setSub (n : SchemaNode) (k : SubKey) (v : SubVal) : wt e w (setSub n k v) ≤ wt e w n + slotWt e w v := by
  have hIf : ∀ x, wtO e w x ≤ wtIf e w x := fun x => by cases x <;> simp <;> omega
  cases k <;> cases v <;> first
    | exact Nat.le_add_right _ _
    | (rename_i x
       have h1 := hIf
       first
         | (have h2 := hIf x; rw [setSub, wt_eq, wt_eq n]; simp only [slotWt]; omega)
         | (rw [setSub, wt_eq, wt_eq n]; simp only [slotWt]; omega)
         | (cases x <;> rw [setSub, wt_eq, wt_eq n] <;> simp [slotWt] <;> omega))

theorem decBaseField_wt {b b' : NodeBase} {k : String} {v : JVal} (h : decBaseField b k v = some b') :
    wtRef w b'.ref ≤ wtRef w b.ref + jwMember e w k v := by
  have key : ∀ (α : Type) (d : Option α) (f : α → NodeBase), (do let x ← d; pure (f x) : Option NodeBase) = some b' →
      (∀ x, (f x).ref = b.ref) → wtRef w b'.ref ≤ wtRef w b.ref + jwMember e w k v := by
    intro α d f h hf
    cases d with
    | none => simp at h
    | some x =>
      have e : f x = b' := Option.some.inj h
      subst e
      rw [hf x]
      exact Nat.le_add_right _ _
  unfold decBaseField at h
  iterate 20 (rcases ite_or h with h | h; · exact key _ _ _ h (fun _ => rfl))
  rcases ite_or h with h | h
  · have e := Option.some.inj h
    subst e
    exact Nat.le_add_right _ _
  by_cases hk : k = "$ref"
  · rw [if_pos hk] at h
    cases v with
    | null => cases h; exact Nat.zero_le _
    | str s =>
      cases h
      rw [jwMember, if_pos hk]
      exact Nat.le_add_left _ _
    | bool _ => cases h
    | num _ => cases h
    | arr _ => cases h
    | obj _ => cases h
  rw [if_neg hk] at h
  iterate 2 (rcases ite_or h with h | h; · exact key _ _ _ h (fun _ => rfl))
  have e := Option.some.inj h
  subst e
  exact Nat.le_add_right _ _

/-- What is proved of every value, by induction on its size. -/
def DecodesLight (e : Nat) (w : String → Nat) (v : JVal) : Prop :=
  (∀ n, decodeNode v = some n → wt e w n ≤ jw e w v) ∧
    ∀ k sh x, decodeSub sh v = some x → slotWt e w x ≤ 2 * e + jwMember e w k v

theorem decodeField_wt {k : String} {v : JVal} {n n' : SchemaNode} (ih : DecodesLight e w v)
    (h : decodeField (k, v) n = some n') : wt e w n' ≤ wt e w n + 2 * e + jwMember e w k v := by
  unfold decodeField at h
  cases hk : SubKey.ofName k with
  | some sk =>
    rw [hk] at h
    dsimp only at h
    cases hd : decodeSub sk.shape v with
    | none => rw [hd] at h; simp at h
    | some x =>
      rw [hd] at h; simp at h; subst h
      have h1 := ih.2 k _ _ hd
      have h2 := wt_setSub (e := e) (w := w) n sk x
      omega
  | none =>
    rw [hk] at h
    dsimp only at h
    cases hd : decBaseField n.toNodeBase k v with
    | none => rw [hd] at h; simp at h
    | some b =>
      rw [hd] at h; simp at h; subst h
      have h1 := decBaseField_wt (e := e) (w := w) hd
      rw [wt_eq, wt_eq n]
      dsimp only at h1 ⊢
      omega

theorem decodeFields_wt : ∀ (m : List (String × JVal)) (n n' : SchemaNode), (∀ p ∈ m, DecodesLight e w p.2) →
    decodeFields m n = some n' → wt e w n' ≤ wt e w n + jwObj e w m := by
  intro m
  induction m with
  | nil => intro n n' _ h; unfold decodeFields at h; simp at h; subst h; simp
  | cons p t ih =>
    intro n n' hd h
    unfold decodeFields at h
    cases h1 : decodeField p n with
    | none => rw [h1] at h; simp at h
    | some x =>
      rw [h1] at h
      obtain ⟨k, v⟩ := p
      have h2 := ih x n' (fun q hq => hd q (by simp [hq])) h
      have h3 := decodeField_wt (hd (k, v) (by simp)) h1
      dsimp only at h3
      rw [jwObj_cons]
      omega

theorem decodeMap_wt : ∀ (m : List (String × JVal)) (l : List (String × SchemaNode)), (∀ p ∈ m, DecodesLight e w p.2) →
    decodeMap m = some l → wtM e w l ≤ jwObj e w m := by
  intro m
  induction m with
  | nil => intro l _ h; unfold decodeMap at h; simp at h; subst h; simp
  | cons p t ih =>
    intro l hd h
    obtain ⟨k, v⟩ := p
    unfold decodeMap decodePair at h
    cases h1 : decodeNode v with
    | none => rw [h1] at h; simp at h
    | some x =>
      rw [h1] at h
      cases h2 : decodeMap t with
      | none => rw [h2] at h; simp at h
      | some r =>
        rw [h2] at h
        simp at h
        subst h
        have a := ih r (fun q hq => hd q (by simp [hq])) h2
        have b := (hd (k, v) (by simp)).1 _ h1
        have b2 := jw_le_member (e := e) (w := w) k v
        rw [wtM_cons, jwObj_cons]
        dsimp only at b
        omega

theorem decodeList_wt : ∀ (m : List JVal) (l : List SchemaNode), (∀ p ∈ m, DecodesLight e w p) →
    decodeList m = some l → wtL e w l ≤ jwArr e w m := by
  intro m
  induction m with
  | nil => intro l _ h; unfold decodeList at h; simp at h; subst h; simp
  | cons v t ih =>
    intro l hd h
    unfold decodeList at h
    cases h1 : decodeNode v with
    | none => rw [h1] at h; simp at h
    | some x =>
      rw [h1] at h
      cases h2 : decodeList t with
      | none => rw [h2] at h; simp at h
      | some r =>
        rw [h2] at h
        simp at h
        subst h
        have a := ih r (fun q hq => hd q (by simp [hq])) h2
        have b := (hd v (by simp)).1 _ h1
        rw [wtL_cons, jwArr_cons]
        omega

theorem decodesLight : ∀ (k : Nat) (v : JVal), sizeOf v ≤ k → DecodesLight e w v := by
  intro k
  induction k with
  | zero => intro v hv; cases v <;> simp at hv
  | succ k ih =>
    intro v hk
    cases v with
    | null =>
      refine ⟨fun n h => ?_, fun k sh x h => ?_⟩
      · unfold decodeNode at h; simp at h; subst h; exact Nat.zero_le _
      · cases sh <;> unfold decodeSub at h <;> simp at h <;> subst h <;> simp [slotWt]
    | bool b =>
      refine ⟨fun n h => ?_, fun k sh x h => ?_⟩
      · unfold decodeNode at h; simp at h
      · cases sh <;> cases b <;> unfold decodeSub at h <;> simp at h <;> subst h <;> simp [slotWt] <;> omega
    | num q =>
      refine ⟨fun n h => ?_, fun k sh x h => ?_⟩
      · unfold decodeNode at h; simp at h
      · cases sh <;> unfold decodeSub at h <;> simp at h
    | str q =>
      refine ⟨fun n h => ?_, fun k sh x h => ?_⟩
      · unfold decodeNode at h; simp at h
      · cases sh <;> unfold decodeSub at h <;> simp at h
    | arr l =>
      have hs : ∀ p ∈ l, DecodesLight e w p := fun p hp => ih p (by
        have := List.sizeOf_lt_of_mem hp
        simp only [JVal.arr.sizeOf_spec] at hk; omega)
      refine ⟨fun n h => ?_, fun k sh x h => ?_⟩
      · unfold decodeNode at h; simp at h
      · cases sh <;> unfold decodeSub at h <;> simp at h
        · obtain ⟨r, h1, rfl⟩ := h
          have := decodeList_wt l r hs h1
          simp only [slotWt, wtOL_some, jwMember]; omega
        · obtain ⟨r, h1, rfl⟩ := h
          have := decodeList_wt l r hs h1
          simp only [slotWt, wtOI_some, wtO_some, wt_empty, wtOL_some, jwMember]; omega
    | obj m =>
      have hs : ∀ p ∈ m, DecodesLight e w p.2 := fun p hp => ih p.2 (by
        have h1 := List.sizeOf_lt_of_mem hp
        have h2 : sizeOf p.2 < sizeOf p := by cases p; simp only [Prod.mk.sizeOf_spec]; omega
        simp only [JVal.obj.sizeOf_spec] at hk; omega)
      have hf : ∀ n, decodeFields m emptyNode = some n → wt e w n ≤ jwObj e w m := fun n h => by
        simpa using decodeFields_wt m emptyNode n hs h
      refine ⟨fun n h => ?_, fun k sh x h => ?_⟩
      · unfold decodeNode at h; exact hf n h
      · cases sh <;> unfold decodeSub at h <;> simp at h
        · obtain ⟨r, h1, rfl⟩ := h
          have := decodeMap_wt m r hs h1
          simp only [slotWt, wtOM_some, jwMember]; omega
        · obtain ⟨r, h1, rfl⟩ := h
          have := hf r h1
          simp only [slotWt, wtIf_some, jwMember]; omega
        · obtain ⟨r, h1, rfl⟩ := h
          have := hf r h1
          simp only [slotWt, wtOF_some, wtO_some, jwMember]; omega
        · obtain ⟨r, h1, rfl⟩ := h
          have := hf r h1
          simp only [slotWt, wtOI_some, wtO_some, wtOL_some, wtL_nil, jwMember]; omega

/-- A decoded schema weighs at most as much as its text. -/
theorem decode_wt {v : JVal} {n : SchemaNode} (h : decodeNode v = some n) : wt e w n ≤ jw e w v :=
  (decodesLight _ v (Nat.le_refl _)).1 n h

/-! ## Schemas without references -/

theorem locate_total (c : PEnv) (ref : String) (s : PSt) :
    (∃ m, resolveIdAndPath c ref s = .panic m) ∨ ∃ r, resolveIdAndPath c ref s = .ok r s := by
  unfold resolveIdAndPath
  rw [bind_apply]
  by_cases hn : '\n' ∈ (splitHash ref.toList).2
  · have : matchDocumentRegex ref s = .panic "index out of range" := by
      unfold matchDocumentRegex; rw [if_pos hn]; rfl
    rw [this]
    exact .inl ⟨_, rfl⟩
  · have : matchDocumentRegex ref s = .ok (String.ofList (splitHash ref.toList).1, String.ofList (splitHash ref.toList).2) s := by
      unfold matchDocumentRegex; rw [if_neg hn]; rfl
    rw [this]
    dsimp only
    split
    · exact .inr ⟨_, rfl⟩
    · unfold resolveDocumentRef
      dsimp only
      repeat' split
      all_goals exact .inr ⟨_, rfl⟩

theorem ends_locate {c : PEnv} {B : PSt → Prop} (ref : String) (d : Int) :
    Ends (fun s => B s ∧ s.depth = d) (fun _ => resolveIdAndPath c ref) (fun _ => True) := by
  refine Ends.const fun s hs => ?_
  rcases locate_total c ref s with ⟨m, h⟩ | ⟨r, h⟩
  · rw [h]; exact ⟨nofun, nofun⟩
  · rw [h]; exact ⟨nofun, fun a s' e => by cases e; exact ⟨trivial, hs⟩⟩

/-- Nothing is allowed to refer to anything; the queue stays empty. -/
theorem refWorld_none (c : PEnv) : RefWorld c (fun _ => 1) (fun _ => 0) (fun s => s.queue = []) where
  frame := fun s s' h e => e.queue.trans h
  pop := fun s r t h _ => h
  leave := fun s h => h
  push := fun ref s p s' h e => by
    rcases locate_total c ref s with ⟨m, h'⟩ | ⟨r, h'⟩
    · rw [h'] at e; cases e
    · rw [h'] at e; cases e; exact h
  locate := ends_locate
  defer := fun _ _ h => by cases h
  follow := fun node ref d hr hf => by
    have : wt 0 (fun _ => 1) node = 0 := hf
    rw [wt_eq, hr, wtRef_some] at this
    omega

theorem matchRegex_total (ref : String) (s : PSt) :
    matchDocumentRegex ref s = .panic "index out of range" ∨
    matchDocumentRegex ref s = .ok (String.ofList (splitHash ref.toList).1, String.ofList (splitHash ref.toList).2) s := by
  unfold matchDocumentRegex
  split
  · exact .inl rfl
  · exact .inr rfl

/-- Without fetchers a queued document cannot be loaded. -/
theorem parseDocument_offline (c : PEnv) (r : PRec) (doc : String) (s : PSt) (h : hasNoFetchers s = true) :
    parseDocument c r doc s = .panic "index out of range" ∨
    parseDocument c r doc s = .ok (some "invalid $ref format") { s with parsingId := doc, resolvingId := doc } := by
  have hd : ∀ t, hasNoFetchers t = true → resolveDocument c doc t = .panic "index out of range" ∨
      resolveDocument c doc t = .ok (.error "invalid $ref format") t := by
    intro t ht
    unfold resolveDocument
    rw [bind_apply]
    rcases matchRegex_total doc t with e | e
    · rw [e]; exact .inl rfl
    · rw [e]
      refine .inr ?_
      dsimp only
      rw [bind_apply]
      unfold Comp.getS
      dsimp only
      rw [if_pos (.inr ht)]
      rfl
  unfold parseDocument
  rw [bind_apply]
  unfold Comp.modS
  dsimp only
  rw [bind_apply]
  rcases hd { s with parsingId := doc, resolvingId := doc } h with e | e
  · rw [e]; exact .inl rfl
  · rw [e]; exact .inr rfl

/-- Without anything in the queue, or without fetchers, the queue is soon worked off. -/
theorem parseQueue_ends (c : PEnv) (r : Nat → PRec) : ∀ (n : Nat) (s : PSt), s.queue.length ≤ n →
    (s.queue = [] ∨ hasNoFetchers s = true) → ∃ x, x ≠ .oom ∧ ∃ k0, ∀ k, k0 ≤ k → ∀ j, parseQueue c (r j) k s = x := by
  intro n
  induction n with
  | zero =>
    intro s hs _
    refine ⟨.ok () s, nofun, 1, fun k hk j => ?_⟩
    obtain ⟨i, rfl⟩ : ∃ i, k = i + 1 := ⟨k - 1, by omega⟩
    rw [parseQueue, bind_apply]
    unfold gets
    dsimp only
    rw [List.eq_nil_of_length_eq_zero (Nat.le_zero.1 hs)]
    rfl
  | succ n ih =>
    intro s hs hn
    cases hq : s.queue with
    | nil =>
      refine ⟨.ok () s, nofun, 1, fun k hk j => ?_⟩
      obtain ⟨i, rfl⟩ : ∃ i, k = i + 1 := ⟨k - 1, by omega⟩
      rw [parseQueue, bind_apply]
      unfold gets
      dsimp only
      rw [hq]
      rfl
    | cons doc t =>
      have hn : hasNoFetchers s = true := by
        rcases hn with h | h
        · rw [h] at hq; cases hq
        · exact h
      have step : ∀ k r, parseQueue c r (k + 1) s = (parseDocument c r doc >>= fun e => do
          (match e with
            | some e => addErrorSub "document_parse_error" e
            | none => pure ())
          parseQueue c r k) { s with queue := t } := by
        intro k r
        rw [parseQueue, bind_apply]
        unfold gets
        dsimp only
        rw [hq]
        rfl
      rcases matchRegex_total doc { s with queue := t, parsingId := doc, resolvingId := doc } with hm | hm
      · refine ⟨.panic "index out of range", nofun, 1, fun k hk j => ?_⟩
        obtain ⟨i, rfl⟩ : ∃ i, k = i + 1 := ⟨k - 1, by omega⟩
        rw [step, bind_apply]
        have : parseDocument c (r j) doc { s with queue := t } = .panic "index out of range" := by
          unfold parseDocument
          rw [bind_apply]
          unfold Comp.modS
          dsimp only
          rw [bind_apply]
          unfold resolveDocument
          rw [bind_apply, hm]
        rw [this]
      · obtain ⟨x, hx, k0, hk0⟩ := ih { s with
            queue := t, parsingId := doc, resolvingId := doc
            errors := ((doc, s.path ++ "document_parse_error"), "invalid $ref format") :: s.errors }
          (by rw [hq] at hs; simpa using hs) (.inr hn)
        refine ⟨x, hx, k0 + 1, fun k hk j => ?_⟩
        obtain ⟨i, rfl⟩ : ∃ i, k = i + 1 := ⟨k - 1, by omega⟩
        rw [step, bind_apply]
        have : parseDocument c (r j) doc { s with queue := t } =
            .ok (some "invalid $ref format") { s with queue := t, parsingId := doc, resolvingId := doc } := by
          rcases parseDocument_offline c (r j) doc { s with queue := t } hn with e | e
          · exfalso
            unfold parseDocument at e
            rw [bind_apply] at e
            unfold Comp.modS at e
            dsimp only at e
            rw [bind_apply] at e
            unfold resolveDocument at e
            rw [bind_apply, hm] at e
            dsimp only at e
            rw [bind_apply] at e
            unfold Comp.getS at e
            dsimp only at e
            rw [if_pos (.inr hn)] at e
            cases e
          · exact e
        rw [this]
        exact hk0 i (by omega) j

/-- The body of the parser ends if the root schema does and there is no queue or no fetcher. -/
theorem parseBody_ends {c : PEnv} {I : PSt → Prop} {root : SchemaNode} {s : PSt}
    (h : Ends I (fun k => parseRoot c (parseRec c k) root) (fun _ => True)) (hs : I s)
    (hI : ∀ s, I s → s.queue = [] ∨ hasNoFetchers s = true) :
    ∃ r, r ≠ .oom ∧ ∃ k0, ∀ k, k0 ≤ k → parseBody c k root s = r := by
  obtain ⟨r, h1, ⟨k0, h2⟩, h3⟩ := h s hs
  cases r with
  | oom => exact absurd rfl h1
  | panic e =>
    refine ⟨.panic e, nofun, k0, fun k hk => ?_⟩
    have h2 : parseRoot c (parseRec c k) root s = .panic e := h2 k hk
    unfold parseBody
    rw [bind_apply, h2]
  | ok g s' =>
    obtain ⟨x, hx, k1, h4⟩ := parseQueue_ends c (fun k => parseRec c k) _ s' (Nat.le_refl _) (hI s' (h3 _ _ rfl).2)
    have key : ∀ k, k0 + k1 ≤ k → parseBody c k root s = (match x with
        | .ok _ s'' => .ok g s''
        | .panic e => .panic e
        | .oom => .oom) := by
      intro k hk
      have h2 : parseRoot c (parseRec c k) root s = .ok g s' := h2 k (by omega)
      have h4 : parseQueue c (parseRec c k) k s' = x := h4 k (by omega) k
      unfold parseBody
      rw [bind_apply, h2]
      dsimp only
      rw [bind_apply, h4]
      cases x <;> rfl
    refine ⟨_, ?_, k0 + k1, key⟩
    cases x with
    | oom => exact absurd rfl hx
    | panic e => exact nofun
    | ok a s => exact nofun

end Chaff
