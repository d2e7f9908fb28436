import Verif.Lemmas.EndsEncode
import Verif.Lemmas.TameRun
import Verif.Props.RefPath
/-!
# References inside one document

Without fetchers and identifiers every reference leads into the root document, to what its fragment names.
-/

namespace Chaff
open Comp

/-- The fragment that a reference is resolved with. -/
def fragKey (r : String) : String := orRoot (String.ofList (splitHash r.toList).2)

/-- States of a parse of one document: no fetchers, no identifiers, names of documents without `#`. -/
structure OneDoc (key : String) (root : SchemaNode) (s : PSt) : Prop where
  docs : s.docs = [(key, root)]
  aliases : s.aliases = []
  http : s.httpFetcher = none
  file : s.fileFetcher = none
  parsing : HashFree s.parsingId
  resolving : HashFree s.resolvingId
  res : ∀ r ∈ s.resolutions, '#' ∉ (splitBar r.toList).1

section
variable {c : PEnv} {key : String} {root : SchemaNode} {bad w : String → Nat}

/-- The document that references are relative to. -/
def scopeOf (s : PSt) : String := if s.resolvingId ≠ "" then s.resolvingId else s.parsingId

theorem OneDoc.scope {s : PSt} (h : OneDoc key root s) : HashFree (scopeOf s) := by
  unfold scopeOf
  split
  · exact h.resolving
  · exact h.parsing

theorem OneDoc.noFetchers {s : PSt} (h : OneDoc key root s) : hasNoFetchers s = true := by
  unfold hasNoFetchers
  rw [h.http, h.file]; rfl

theorem docRef_offline {s : PSt} (h : OneDoc key root s) (doc path : String) :
    resolveDocumentRef c doc path s = .ok (.ok (scopeOf s, path)) s := by
  unfold resolveDocumentRef
  dsimp only
  rw [h.aliases]
  simp only [lookupKV, ite_self]
  rw [if_pos h.noFetchers]
  rfl

theorem locate_offline {s : PSt} (h : OneDoc key root s) (ref : String) :
    (∃ m, resolveIdAndPath c ref s = .panic m) ∨ resolveIdAndPath c ref s = .ok (.ok (scopeOf s, fragKey ref)) s := by
  unfold resolveIdAndPath
  rw [bind_apply]
  rcases matchRegex_total ref s with e | e
  · rw [e]; exact .inl ⟨_, rfl⟩
  · rw [e]
    refine .inr ?_
    dsimp only
    split
    · rfl
    · exact docRef_offline h _ _

theorem defer_offline {s : PSt} (h : OneDoc key root s) (ref : String) :
    (∃ m, handleDeferred c ref s = .panic m) ∨ ∃ q, handleDeferred c ref s = .ok (.ok (scopeOf s, fragKey ref)) { s with queue := q } := by
  unfold handleDeferred
  rw [bind_apply]
  rcases matchRegex_total ref s with e | e
  · rw [e]; exact .inl ⟨_, rfl⟩
  · rw [e]
    refine .inr ?_
    dsimp only
    split
    · exact ⟨s.queue, rfl⟩
    · rw [bind_apply, docRef_offline h]
      dsimp only
      rw [bind_apply]
      unfold queueDocument Comp.modS
      dsimp only
      split
      · exact ⟨_, rfl⟩
      · exact ⟨s.queue, rfl⟩

/-! ## The text of references -/

theorem splitHash_free_append : ∀ (a b : List Char), '#' ∉ a → (splitHash (a ++ b)).2 = (splitHash b).2
  | [], _, _ => rfl
  | x :: a, b, h => by
    have hx : x ≠ '#' := fun e => h (by simp [e])
    rw [List.cons_append, splitHash, if_neg hx]
    exact splitHash_free_append a b fun h' => h (List.mem_cons_of_mem _ h')

theorem splitHash_hash (l : List Char) : (splitHash l).2 = [] ∨ ∃ t, (splitHash l).2 = '#' :: t := by
  induction l with
  | nil => exact .inl rfl
  | cons x t ih =>
    rw [splitHash]
    split
    · rename_i h; exact .inr ⟨t, by rw [h]⟩
    · exact ih

theorem fragKey_hash (r : String) : ∃ t, (fragKey r).toList = '#' :: t := by
  unfold fragKey orRoot
  split
  · exact ⟨[], rfl⟩
  · rename_i h
    rcases splitHash_hash r.toList with e | ⟨t, e⟩
    · rw [e] at h; exact absurd rfl h
    · rw [e]; exact ⟨t, by simp⟩

theorem fragKey_of_hash {r : String} {t : List Char} (h : r.toList = '#' :: t) : fragKey r = r := by
  unfold fragKey orRoot
  rw [h, splitHash, if_pos rfl]
  have e : String.ofList ('#' :: t) = r := by rw [← h]; simp
  dsimp only
  rw [e, if_neg]
  rintro rfl
  cases h

theorem fragKey_idem (r : String) : fragKey (fragKey r) = fragKey r := by
  obtain ⟨t, h⟩ := fragKey_hash r
  exact fragKey_of_hash h

theorem fragKey_append {a : String} (ha : HashFree a) (r : String) : fragKey (a ++ fragKey r) = fragKey r := by
  obtain ⟨t, h⟩ := fragKey_hash r
  have e : (splitHash (a ++ fragKey r).toList).2 = (fragKey r).toList := by
    rw [String.toList_append, splitHash_free_append _ _ ha, h, splitHash, if_pos rfl]
  show orRoot _ = _
  rw [e]
  unfold orRoot
  simp only [String.ofList_toList]
  rw [if_neg]
  intro e
  rw [e] at h
  cases h

/-! ## Paths -/

theorem pathToken_length (l : List Char) : (pathToken l).2.length ≤ l.length - 1 := by
  induction l with
  | nil => exact Nat.le_refl _
  | cons x t ih =>
    rw [pathToken]
    split
    · simp
    · simp only [List.length_cons]; omega

/-- A computation that neither reads nor changes the state. -/
def Stateless {α : Type} (m : P α) : Prop := (∃ e, ∀ s, m s = .panic e) ∨ ∃ x, ∀ s, m s = .ok x s

theorem Stateless.pure {α : Type} (x : α) : Stateless (pure x : P α) := .inr ⟨x, fun _ => rfl⟩
theorem Stateless.fail {α : Type} (e : String) : Stateless (Comp.fail e : P α) := .inl ⟨e, fun _ => rfl⟩
theorem Stateless.ite {α : Type} {p : Prop} [Decidable p] {a b : P α} (ha : Stateless a) (hb : Stateless b) :
    Stateless (if p then a else b) := by
  split
  · exact ha
  · exact hb

/-- With enough fuel a path is resolved, without touching the state. -/
theorem subPath_total : ∀ (k : Nat) (n : Option SchemaNode) (p : List Char), p.length < k → Stateless (subPath k n p) := by
  intro k
  induction k with
  | zero => intro n p h; omega
  | succ k ih =>
    intro n p h
    cases n with
    | none => exact .pure _
    | some n =>
      rw [subPath]
      by_cases hp : (pathToken p).2 = []
      · rw [if_pos hp]; exact .pure _
      rw [if_neg hp]
      have hl : (pathToken p).2.length < k := by
        have h1 := pathToken_length p
        have h2 : 0 < (pathToken p).2.length := List.length_pos_iff.2 hp
        omega
      generalize (pathToken p).2 = q at hl
      have hl' : (pathToken q).2.length < k := by
        have h1 := pathToken_length q
        omega
      have s1 : ∀ m, Stateless (subPath k m q) := fun m => ih m q hl
      have s2 : ∀ m, Stateless (subPath k m (pathToken q).2) := fun m => ih m _ hl'
      have hprop : ∀ m, Stateless (resolveProperty (subPath k) m q) := by
        intro m
        unfold resolveProperty
        split
        · exact .pure _
        · split
          · exact .pure _
          · exact s2 _
      have hslice : ∀ m, Stateless (resolveSlice (subPath k) m q) := by
        intro m
        unfold resolveSlice
        split
        · exact .pure _
        · split
          · exact .pure _
          · refine .ite (.pure _) ?_
            split
            · exact .fail _
            · exact s2 _
      have hfalse : ∀ m, Stateless (resolveFalseOrSchema (subPath k) m q) := by
        intro m
        unfold resolveFalseOrSchema
        split
        · exact .fail _
        · exact .ite (.pure _) (s1 _)
      have hitems : ∀ m, Stateless (resolveItems (subPath k) m q) := by
        intro m
        unfold resolveItems
        split
        · exact .fail _
        · exact .ite (s1 _) (hslice _)
      exact .ite (hprop _) <| .ite (hprop _) <| .ite (hfalse _) <| .ite (hitems _) <| .ite (hslice _) <| .ite (s1 _) <|
        .ite (hfalse _) <| .ite (hfalse _) <| .ite (hslice _) <| .ite (hslice _) <| .ite (hslice _) <| .ite (s1 _) <|
        .ite (s1 _) <| .ite (s1 _) <| .ite (s1 _) <| .ite (hprop _) <| .ite (hprop _) <| .ite (s1 _) (.pure _)

theorem subRef_total (n : Option SchemaNode) (path : String) : Stateless (resolveSubReferencePath n path) :=
  subPath_total _ _ _ (Nat.lt_succ_self _)

/-- The node that a fragment names. -/
def Target (root : SchemaNode) (path : String) (n : SchemaNode) : Prop := ∀ s, resolveSubReferencePath (some root) path s = .ok (.ok n) s

theorem subRef_cases (root : SchemaNode) (path : String) :
    (∃ e, ∀ s, resolveSubReferencePath (some root) path s = .panic e) ∨ (∃ e, ∀ s, resolveSubReferencePath (some root) path s = .ok (.error e) s) ∨
      ∃ n, Target root path n := by
  rcases subRef_total (some root) path with h | ⟨x, h⟩
  · exact .inl h
  · cases x with
    | error e => exact .inr (.inl ⟨e, h⟩)
    | ok n => exact .inr (.inr ⟨n, h⟩)

theorem subRef_none (path : String) (s : PSt) : ∃ e, resolveSubReferencePath none path s = .ok (.error e) s := ⟨_, rfl⟩

theorem oneDoc_setResolving {s : PSt} (h : OneDoc key root s) {d : String} (hd : HashFree d) : OneDoc key root { s with resolvingId := d } :=
  ⟨h.docs, h.aliases, h.http, h.file, h.parsing, hd, h.res⟩

/-- Resolving a reference gives the node that its fragment names. -/
theorem resolvePath_offline {s : PSt} (h : OneDoc key root s) (ref : String) :
    (∃ m, resolvePath c ref s = .panic m) ∨ ∃ x d, HashFree d ∧ resolvePath c ref s = .ok x { s with resolvingId := d } ∧
      ∀ n t, x = .ok (n, t) → Target root (fragKey ref) n := by
  have same : ({ s with resolvingId := s.resolvingId } : PSt) = s := rfl
  have hl : lookupKV s.docs (scopeOf s) = some root ∨ lookupKV s.docs (scopeOf s) = none := by
    rw [h.docs, lookupKV]
    split
    · exact .inl rfl
    · exact .inr rfl
  unfold resolvePath
  rw [bind_apply]
  rcases matchRegex_total ref s with e | e
  · rw [e]; exact .inl ⟨_, rfl⟩
  rw [e]
  dsimp only
  have hf : orRoot (String.ofList (splitHash ref.toList).2) = fragKey ref := rfl
  rw [hf]
  split
  · rw [bind_apply]
    have hs : currentScope s = .ok (scopeOf s) s := rfl
    rw [hs]
    dsimp only
    rw [bind_apply]
    have hg : gets (fun s => lookupKV s.docs (scopeOf s)) s = .ok (lookupKV s.docs (scopeOf s)) s := rfl
    unfold gets
    dsimp only
    rw [bind_apply]
    rcases hl with hl | hl
    · rw [hl]
      rcases subRef_cases root (fragKey ref) with ⟨e, he⟩ | ⟨e, he⟩ | ⟨n, hn⟩
      · rw [he]; exact .inl ⟨_, rfl⟩
      · rw [he]; exact .inr ⟨_, s.resolvingId, h.resolving, rfl, nofun⟩
      · rw [hn s]
        refine .inr ⟨_, s.resolvingId, h.resolving, rfl, ?_⟩
        intro n' t e
        cases e
        exact hn
    · rw [hl]
      exact .inr ⟨_, s.resolvingId, h.resolving, rfl, nofun⟩
  · rw [bind_apply, docRef_offline h]
    dsimp only
    rw [bind_apply]
    unfold loadDocument
    rw [bind_apply]
    unfold gets
    dsimp only
    rcases hl with hl | hl
    · rw [hl]
      dsimp only
      rw [pure_apply]
      dsimp only
      rw [bind_apply]
      rcases subRef_cases root (fragKey ref) with ⟨e, he⟩ | ⟨e, he⟩ | ⟨n, hn⟩
      · rw [he]; exact .inl ⟨_, rfl⟩
      · rw [he]; exact .inr ⟨_, s.resolvingId, h.resolving, rfl, nofun⟩
      · rw [hn s]
        refine .inr ⟨_, scopeOf s, h.scope, rfl, ?_⟩
        intro n' t e
        cases e
        exact hn
    · rw [hl]
      dsimp only
      unfold resolveDocument
      rw [bind_apply]
      rcases matchRegex_total (scopeOf s) s with e | e
      · rw [e]; exact .inl ⟨_, rfl⟩
      · rw [e]
        dsimp only
        rw [bind_apply]
        unfold Comp.getS
        dsimp only
        rw [if_pos (.inr h.noFetchers)]
        exact .inr ⟨_, s.resolvingId, h.resolving, rfl, nofun⟩

/-! ## Following references -/

/-- Weights of references that get smaller with every step, and only look at the fragment. -/
structure Ranked (root : SchemaNode) (bad w : String → Nat) : Prop where
  badFrag : ∀ r, bad (fragKey r) = bad r
  wFrag : ∀ r, w (fragKey r) = w r
  allowed : ∀ r n, bad r = 0 → Target root (fragKey r) n → ∀ r' ∈ refTexts (encodeNode n), bad r' = 0
  smaller : ∀ r n, bad r = 0 → Target root (fragKey r) n → jw 1 w (encodeNode n) + 1 ≤ w r

/-- Before and after a run. -/
def OneAt (key : String) (root : SchemaNode) (d : Int) (s : PSt) : Prop := OneDoc key root s ∧ s.depth = d

theorem oneDoc_frame {s s' : PSt} (h : OneDoc key root s) (e : SameRef s s') : OneDoc key root s' :=
  ⟨e.docs.trans h.docs, e.aliases.trans h.aliases, e.http.trans h.http, e.file.trans h.file, e.parsing ▸ h.parsing,
    e.resolving ▸ h.resolving, e.res ▸ h.res⟩

theorem ends_error {I : PSt → Prop} {α : Type} {Q : Except Err α → Prop} {sub : String} {e e' : Err}
    (hI : ∀ s x, I s → I { s with errors := x }) (hQ : Q (.error e')) :
    Ends I (fun _ => (do addErrorSub sub e; pure (.error e') : P (Except Err α))) Q :=
  Ends.bind (Q := fun _ => True) (Ends.modS fun s hs => hI s _ hs) fun _ _ => Ends.pure hQ

theorem oneAt_errors {d : Int} (s : PSt) (x : List ((String × String) × Err)) (h : OneAt key root d s) :
    OneAt key root d { s with errors := x } :=
  ⟨⟨h.1.docs, h.1.aliases, h.1.http, h.1.file, h.1.parsing, h.1.resolving, h.1.res⟩, h.2⟩

theorem oneAt_resolving {d : Int} {s : PSt} {x : String} (h : OneAt key root d s) (hx : HashFree x) :
    OneAt key root d { s with resolvingId := x } := ⟨oneDoc_setResolving h.1 hx, h.2⟩

theorem ends_refLoop (R : Ranked root bad w) (d : Int) : ∀ (m : Nat) (ref : String) (node : SchemaNode) (seen : List String),
    node.ref = some ref → bad ref = 0 → w ref = m →
    Ends (OneAt key root d) (fun k => resolveRefLoop c k seen node)
      (fun x => ∀ n, x = .ok n → (∀ r ∈ refTexts (encodeNode n), bad r = 0) ∧ jw 1 w (encodeNode n) + 1 ≤ w ref) := by
  intro m
  induction m using Nat.strong_induction_on with
  | _ m ih =>
    intro ref node seen hr hb hw
    refine Ends.shift ?_
    refine Ends.congr (m := fun k => (resolvePath c ref >>= fun r => match r with
      | .error e => do
        addErrorSub "/config_ref_merge_error[]" e
        pure (.error e)
      | .ok (next, sub) =>
        if sub ∈ seen then do
          addErrorSub "/$ref" "circular reference detected"
          pure (.error "circular reference detected")
        else resolveRefLoop c k (seen ++ [sub]) next : P (Except Err SchemaNode))) ?_
        fun k => by rw [resolveRefLoop, hr]; rfl
    refine Ends.bind (m := fun _ => resolvePath c ref) (Q := fun x => ∀ n t, x = .ok (n, t) → Target root (fragKey ref) n) ?_ ?_
    · refine Ends.const fun s hs => ?_
      rcases resolvePath_offline (c := c) hs.1 ref with ⟨e, he⟩ | ⟨x, y, hy, he, hx⟩
      · rw [he]; exact ⟨nofun, nofun⟩
      · rw [he]; exact ⟨nofun, fun a s' e => by cases e; exact ⟨hx, oneAt_resolving hs hy⟩⟩
    intro x hx
    cases x with
    | error e => exact ends_error oneAt_errors nofun
    | ok p =>
      obtain ⟨next, sub⟩ := p
      have ht : Target root (fragKey ref) next := hx _ _ rfl
      have h1 := R.allowed ref next hb ht
      have h2 := R.smaller ref next hb ht
      dsimp only
      refine Ends.ite (fun _ => ends_error oneAt_errors nofun) fun _ => ?_
      cases hn : next.ref with
      | none =>
        refine Ends.shift ?_
        refine Ends.congr (m := fun _ => (pure (.ok next) : P (Except Err SchemaNode))) (Ends.pure ?_) fun k => by
          rw [resolveRefLoop, hn]
        intro n e
        cases e
        exact ⟨h1, h2⟩
      | some ref' =>
        have hm := ref_mem_encode hn
        have h3 := jw_mem (v := w) 1 _ _ hm
        refine (ih (w ref') (by omega) ref' next _ hn (h1 _ hm) rfl).mono ?_
        intro x hx n e
        obtain ⟨a, b⟩ := hx n e
        exact ⟨a, by omega⟩

/-! ## Rewriting -/

/-- Reads the state `s`, does not change it, does not run for ever. -/
def Reads {α : Type} (s : PSt) (m : P (Except Err α)) (Q : α → Prop) : Prop :=
  (∃ e, m s = .panic e) ∨ ∃ x, m s = .ok x s ∧ ∀ a, x = .ok a → Q a

theorem Reads.pure {α : Type} {s : PSt} {Q : α → Prop} {a : α} (h : Q a) : Reads s (pure (.ok a)) Q :=
  .inr ⟨_, rfl, fun _ e => by cases e; exact h⟩
theorem Reads.error {α : Type} {s : PSt} {Q : α → Prop} {e : Err} : Reads s (Pure.pure (.error e) : P (Except Err α)) Q :=
  .inr ⟨_, rfl, nofun⟩
theorem Reads.bind {α β : Type} {s : PSt} {m : P (Except Err α)} {Q : α → Prop} {R : β → Prop} {f : Except Err α → P (Except Err β)}
    (h : Reads s m Q) (he : ∀ e, Reads s (f (.error e)) R) (hf : ∀ a, Q a → Reads s (f (.ok a)) R) : Reads s (m >>= f) R := by
  unfold Reads
  rw [bind_apply]
  rcases h with ⟨e, h⟩ | ⟨x, h, hx⟩
  · rw [h]; exact .inl ⟨_, rfl⟩
  · rw [h]
    cases x with
    | error e => exact he e
    | ok a => exact hf a (hx a rfl)

/-- Weights that only look at the fragment. -/
def ByFrag (v : String → Nat) : Prop := ∀ r, v (fragKey r) = v r

theorem rewriteRef_jw {s : PSt} (h : OneDoc key root s) (r : String) :
    Reads s (rewriteRef c r) (fun t => ∀ v, ByFrag v → v t = v r) := by
  unfold rewriteRef
  refine Reads.bind (Q := fun p => p = (scopeOf s, fragKey r)) ?_ (fun e => .error) fun p hp => ?_
  · rcases locate_offline (c := c) h r with ⟨e, he⟩ | he
    · exact .inl ⟨e, he⟩
    · exact .inr ⟨_, he, fun a e => by cases e; rfl⟩
  · subst hp
    refine Reads.pure fun v hv => ?_
    dsimp only
    rw [← hv (scopeOf s ++ fragKey r), fragKey_append h.scope, hv]

mutual
theorem rewriteObj_jw {s : PSt} (h : OneDoc key root s) : ∀ m : List (String × JVal),
    Reads s (rewriteObj c m) (fun m' => ∀ e v, ByFrag v → jwObj e v m' = jwObj e v m)
  | [] => by
    rw [rewriteObj]
    exact Reads.pure fun _ _ _ => rfl
  | p :: t => by
    rw [rewriteObj]
    refine Reads.bind (rewriteMember_jw h p) (fun e => .error) fun q hq => ?_
    cases q with
    | none => exact Reads.pure fun _ _ _ => rfl
    | some q =>
      refine Reads.bind (rewriteObj_jw h t) (fun e => .error) fun l hl => Reads.pure fun e v hv => ?_
      rw [jwObj, jwObj, hl e v hv, hq q rfl e v hv]
termination_by structural l => l
theorem rewriteMember_jw {s : PSt} (h : OneDoc key root s) : ∀ p : String × JVal,
    Reads s (rewriteMember c p) (fun q => ∀ q', q = some q' → ∀ e v, ByFrag v → jwField e v q' = jwField e v p)
  | (k, x) => by
    rw [rewriteMember]
    exact rewriteValue_jw h k x
termination_by structural p => p
theorem rewriteValue_jw {s : PSt} (h : OneDoc key root s) (k : String) : ∀ x : JVal,
    Reads s (rewriteValue c k x) (fun q => ∀ q', q = some q' → ∀ e v, ByFrag v → jwField e v q' = jwField e v (k, x))
  | .str t => by
    rw [rewriteValue]
    split
    · rename_i hk
      refine Reads.bind (rewriteRef_jw h t) (fun e => .error) fun r hr => Reads.pure ?_
      intro q' e' e v hv
      cases e'
      rw [jwField, jwField, jwMember, jwMember, if_pos hk, if_pos hk, hr v hv]
    · exact Reads.pure fun q' e => by cases e; exact fun _ _ _ => rfl
  | .obj m => by
    rw [rewriteValue]
    split
    · exact Reads.pure nofun
    · refine Reads.bind (rewriteObj_jw h m) (fun e => .error) fun r hr => Reads.pure ?_
      intro q' e' e v hv
      cases e'
      have := hr e v hv
      rw [jwField, jwField, jwMember, jwMember, this]
  | .arr l => by
    rw [rewriteValue]
    split
    · exact Reads.pure nofun
    · refine Reads.bind (rewriteItems_jw h l) (fun e => .error) fun r hr => Reads.pure ?_
      intro q' e' e v hv
      cases e'
      have := hr e v hv
      rw [jwField, jwField, jwMember, jwMember, this]
  | .null => by
    rw [rewriteValue]
    split
    · exact Reads.pure nofun
    · exact Reads.pure fun q' e => by cases e; exact fun _ _ _ => rfl
  | .bool _ => by
    rw [rewriteValue]
    split
    · exact Reads.pure nofun
    · exact Reads.pure fun q' e => by cases e; exact fun _ _ _ => rfl
  | .num _ => by
    rw [rewriteValue]
    split
    · exact Reads.pure nofun
    · exact Reads.pure fun q' e => by cases e; exact fun _ _ _ => rfl
termination_by structural x => x
theorem rewriteItems_jw {s : PSt} (h : OneDoc key root s) : ∀ l : List JVal,
    Reads s (rewriteItems c l) (fun l' => ∀ e v, ByFrag v → jwArr e v l' = jwArr e v l)
  | [] => by
    rw [rewriteItems]
    exact Reads.pure fun _ _ _ => rfl
  | x :: t => by
    rw [rewriteItems]
    refine Reads.bind (rewriteItem_jw h x) (fun e => .error) fun y hy => ?_
    refine Reads.bind (rewriteItems_jw h t) (fun e => .error) fun l hl => Reads.pure fun e v hv => ?_
    rw [jwArr, jwArr, hl e v hv, hy e v hv]
termination_by structural l => l
theorem rewriteItem_jw {s : PSt} (h : OneDoc key root s) : ∀ x : JVal,
    Reads s (rewriteItem c x) (fun y => ∀ e v, ByFrag v → jw e v y = jw e v x)
  | .obj m => by
    rw [rewriteItem]
    refine Reads.bind (rewriteObj_jw h m) (fun e => .error) fun r hr => Reads.pure ?_
    intro e v hv
    rw [jw, jw, hr e v hv]
  | .null => by rw [rewriteItem]; exact Reads.pure fun _ _ _ => rfl
  | .bool _ => by rw [rewriteItem]; exact Reads.pure fun _ _ _ => rfl
  | .num _ => by rw [rewriteItem]; exact Reads.pure fun _ _ _ => rfl
  | .str _ => by rw [rewriteItem]; exact Reads.pure fun _ _ _ => rfl
  | .arr _ => by rw [rewriteItem]; exact Reads.pure fun _ _ _ => rfl
termination_by structural x => x
end

/-- A rewritten node weighs at most as much as the encoding of the node. -/
theorem rewrite_wt {s : PSt} (h : OneDoc key root s) (n : SchemaNode) :
    Reads s (rewriteReferences c n) (fun n' => ∀ e v, ByFrag v → wt e v n' ≤ jw e v (encodeNode n)) := by
  unfold rewriteReferences
  refine Reads.bind (rewriteItem_jw h _) (fun e => .error) fun x hx => ?_
  dsimp only
  cases hd : decodeNode x with
  | none => exact .error
  | some n' =>
    refine Reads.pure fun e v hv => ?_
    rw [← hx e v hv]
    exact decode_wt hd

/-- What following a reference gives. -/
theorem ends_mergeResolve (R : Ranked root bad w) (d : Int) (ref : String) (node : SchemaNode) (hr : node.ref = some ref) (hb : bad ref = 0) :
    Ends (OneAt key root d) (fun k => mergeResolveReference c k node)
      (fun x => ∀ n, x = .ok n → Fine bad n ∧ wt 1 w n + 1 ≤ w ref) := by
  unfold mergeResolveReference
  refine Ends.bind (Q := fun x => ∀ n, x = .ok n → Fine bad n ∧ wt 1 w n + 1 ≤ w ref) ?_ fun x hx => ?_
  · unfold resolveRefBody
    refine Ends.bind (ends_refLoop R d _ ref node [] hr hb rfl) fun x hx => ?_
    cases x with
    | error e => exact Ends.pure nofun
    | ok n =>
      dsimp only
      obtain ⟨h1, h2⟩ := hx n rfl
      refine Ends.bind (m := fun _ => rewriteReferences c n) (Q := fun y => ∀ n', y = .ok n' → Fine bad n' ∧ wt 1 w n' + 1 ≤ w ref) ?_ ?_
      · refine Ends.const fun s hs => ?_
        rcases rewrite_wt (c := c) hs.1 n with ⟨e, he⟩ | ⟨y, he, hy⟩
        · rw [he]; exact ⟨nofun, nofun⟩
        · rw [he]
          refine ⟨nofun, fun a s' e => ?_⟩
          cases e
          refine ⟨fun n' e => ?_, hs⟩
          have a := hy n' e 0 bad R.badFrag
          have b := hy n' e 1 w R.wFrag
          rw [jw_zero _ h1] at a
          exact ⟨Nat.le_zero.1 a, by omega⟩
      · intro y hy
        cases y with
        | error e => exact ends_error oneAt_errors nofun
        | ok n' => exact Ends.pure hy
  · refine Ends.bind (Q := fun i => HashFree i) (Ends.getsP fun s hs => hs.1.parsing) fun i hi => ?_
    refine Ends.bind (Q := fun _ => True) (Ends.modS fun s hs => oneAt_resolving hs hi) fun _ _ => Ends.pure hx

theorem oneDoc_push {s : PSt} (h : OneDoc key root s) {a : String} (ha : HashFree a) (b : String) :
    OneDoc key root { s with resolutions := resKey a b :: s.resolutions } := by
  refine ⟨h.docs, h.aliases, h.http, h.file, h.parsing, h.resolving, fun r hr => ?_⟩
  rcases List.mem_cons.1 hr with rfl | hr
  · exact resKey_free ha
  · exact h.res r hr

/-- One document with ranked references. -/
theorem refWorld_ranked (c : PEnv) (R : Ranked root bad w) : RefWorld c bad w (OneDoc key root) where
  frame := fun s s' h e => oneDoc_frame h e
  pop := fun s r t h e => ⟨h.docs, h.aliases, h.http, h.file, h.parsing, h.resolving, fun x hx => h.res x (by rw [e]; exact List.mem_cons_of_mem _ hx)⟩
  leave := fun s h => by
    refine oneDoc_setResolving h ?_
    unfold currentResolution
    split
    · show '#' ∉ "".toList
      decide +kernel
    · rename_i r t e
      show '#' ∉ (String.ofList _).toList
      rw [String.toList_ofList]
      exact h.res r (by rw [e]; exact List.mem_cons_self ..)
  push := fun ref s p s' h e => by
    rcases locate_offline (c := c) h ref with ⟨m, h'⟩ | h'
    · rw [h'] at e; cases e
    · rw [h'] at e; cases e; exact oneDoc_push h h.scope _
  locate := ends_locate
  defer := fun ref d _ => by
    refine Ends.const fun s hs => ?_
    rcases defer_offline (c := c) hs.1 ref with ⟨e, he⟩ | ⟨q, he⟩
    · rw [he]; exact ⟨nofun, nofun⟩
    · rw [he]
      refine ⟨nofun, fun a s' e => ?_⟩
      cases e
      exact ⟨trivial, ⟨hs.1.docs, hs.1.aliases, hs.1.http, hs.1.file, hs.1.parsing, hs.1.resolving, hs.1.res⟩, hs.2⟩
  follow := fun node ref d hr hf => by
    have hf' : wt 0 bad node = 0 := hf
    have hb : bad ref = 0 := by
      rw [wt_eq, hr, wtRef_some] at hf'
      omega
    have hw : w ref ≤ wt 1 w node := by
      rw [wt_eq, hr, wtRef_some]
      omega
    have hdrop : Fine bad { node with ref := none } ∧ wt 1 w { node with ref := none } + (if false = true then 1 else 0) ≤ wt 1 w node := by
      have hd : ∀ e v, wt e v { node with ref := none } ≤ wt e v node := by
        intro e v
        rw [wt_eq, wt_eq node]
        dsimp only
        rw [wtRef_none]
        gcongr
        exact Nat.zero_le _
      exact ⟨Nat.le_zero.1 (le_of_le_of_eq (hd 0 bad) hf'), hd 1 w⟩
    unfold mergeResolveNodeRef
    rw [hr]
    dsimp only
    refine Ends.bind (m := fun _ => resolveIdAndPath c ref) (Q := fun x => ∀ p, x = .ok p → HashFree p.1 ∧ p.2 = fragKey ref) ?_ ?_
    · refine Ends.const fun s hs => ?_
      rcases locate_offline (c := c) hs.1 ref with ⟨e, he⟩ | he
      · rw [he]; exact ⟨nofun, nofun⟩
      · rw [he]
        refine ⟨nofun, fun a s' e => ?_⟩
        cases e
        exact ⟨fun p e => by cases e; exact ⟨hs.1.scope, rfl⟩, hs⟩
    intro x hx
    cases x with
    | error e =>
      exact Ends.bind (Q := fun _ => True) (Ends.modS fun s hs => oneAt_errors s _ hs) fun _ _ => Ends.pure hdrop
    | ok p =>
      obtain ⟨doc, path⟩ := p
      obtain ⟨h1, h2⟩ := hx _ rfl
      dsimp only at h1 h2 ⊢
      subst h2
      refine Ends.bind (Q := fun _ => True) Ends.gets fun seen _ => ?_
      refine Ends.ite (fun _ => Ends.pure ⟨hf, by simp⟩) fun _ => ?_
      have e1 : bad (doc ++ fragKey ref) = 0 := by rw [← R.badFrag, fragKey_append h1, R.badFrag, hb]
      have e2 : w (doc ++ fragKey ref) = w ref := by rw [← R.wFrag, fragKey_append h1, R.wFrag]
      refine Ends.bind (ends_mergeResolve R d _ { node with ref := some (doc ++ fragKey ref) } rfl e1) fun x hx => ?_
      cases x with
      | error e =>
        exact Ends.bind (Q := fun _ => True) (Ends.modS fun s hs => oneAt_errors s _ hs) fun _ _ => Ends.pure hdrop
      | ok n =>
        obtain ⟨a, b⟩ := hx n rfl
        refine Ends.bind (Q := fun _ => True) (Ends.modS fun s hs => ⟨oneDoc_push hs.1 h1 _, hs.2⟩) fun _ _ => Ends.pure ⟨a, ?_⟩
        rw [e2] at b
        simp only [if_true]
        omega

end

end Chaff
