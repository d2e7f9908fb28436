import Verif.Lemmas.Tame
import Verif.Lemmas.PKeeps
/-!
# Running the parser on tame schemas: documents, references and rewriting

`Runs c K S m Q`: from a state in which every document is tame and every registered generator satisfies `S`, the
computation `m` does not panic (when `K` asks for that), and if it returns, its result satisfies `Q` and the state is again
such a state.
-/

namespace Chaff
open Comp

/-- A document name without `#`. -/
def HashFree (s : String) : Prop := '#' ∉ s.toList

/-- What holds of the tables of the parser throughout a parse of tame schemas. -/
structure StAll (c : PEnv) (K : Care) (S : Gen → Prop) (refs : List ((String × String) × Gen))
    (docs : List (String × SchemaNode)) (aliases : List (String × (String × String))) (queue : List String)
    (parsingId resolvingId : String) (resolutions : List String) : Prop where
  refs : ∀ p ∈ refs, S p.2
  docs : ∀ p ∈ docs, Every c K p.2
  aliases : K.calm → aliases = []
  queue : K.calm → ∀ d ∈ queue, HashFree d
  parsing : K.calm → HashFree parsingId
  resolving : K.calm → HashFree resolvingId
  res : K.calm → ∀ r ∈ resolutions, '#' ∉ (splitBar r.toList).1

/-- The same for a state. -/
def St (c : PEnv) (K : Care) (S : Gen → Prop) (s : PSt) : Prop :=
  StAll c K S s.refs s.docs s.aliases s.queue s.parsingId s.resolvingId s.resolutions

/-- The outside world is tame. -/
structure WorldOk (c : PEnv) (K : Care) : Prop where
  tame : TameWorld c K
  calm : K.calm → CalmWorld c

/-- Running from a good state. -/
def Runs (c : PEnv) (K : Care) (S : Gen → Prop) {α : Type} (m : P α) (Q : α → Prop) : Prop :=
  ∀ s, St c K S s → (K.calm → ∀ e, m s ≠ .panic e) ∧ ∀ a s', m s = .ok a s' → Q a ∧ St c K S s'

/-- A condition on a result that may be an error. -/
def ExOk {α : Type} (Q : α → Prop) (r : Except Err α) : Prop := ∀ a, r = .ok a → Q a

section
variable {c : PEnv} {K : Care} {S : Gen → Prop} {α β : Type}

theorem exOk_error {Q : α → Prop} (e : Err) : ExOk Q (.error e) := by intro a h; cases h
theorem exOk_ok {Q : α → Prop} {a : α} (h : Q a) : ExOk Q (.ok a) := by intro b e; cases e; exact h

theorem Runs.pure {a : α} {Q : α → Prop} (h : Q a) : Runs c K S (pure a) Q := by
  intro s hs
  refine ⟨fun _ e he => by simp at he, fun b s' hb => ?_⟩
  obtain ⟨rfl, rfl⟩ := pure_ok.1 hb
  exact ⟨h, hs⟩

theorem Runs.bind {m : P α} {f : α → P β} {R : α → Prop} {Q : β → Prop} (hm : Runs c K S m R)
    (hf : ∀ a, R a → Runs c K S (f a) Q) : Runs c K S (m >>= f) Q := by
  intro s hs
  obtain ⟨h1, h2⟩ := hm s hs
  constructor
  · intro hc e he
    rcases bind_panic.1 he with he | ⟨a, s', e1, e2⟩
    · exact h1 hc e he
    · obtain ⟨ha, hs'⟩ := h2 a s' e1
      exact (hf a ha s' hs').1 hc e e2
  · intro b s'' hb
    obtain ⟨a, s', e1, e2⟩ := bind_ok.1 hb
    obtain ⟨ha, hs'⟩ := h2 a s' e1
    exact (hf a ha s' hs').2 b s'' e2

theorem Runs.mono {m : P α} {R Q : α → Prop} (hm : Runs c K S m R) (h : ∀ a, R a → Q a) : Runs c K S m Q :=
  fun s hs => ⟨(hm s hs).1, fun a s' e => ⟨h a ((hm s hs).2 a s' e).1, ((hm s hs).2 a s' e).2⟩⟩

theorem Runs.fail {e : String} {Q : α → Prop} (h : ¬ K.calm) : Runs c K S (Comp.fail e) Q :=
  fun s hs => ⟨fun hc => absurd hc h, fun a s' h => by simp at h⟩

theorem Runs.oom {Q : α → Prop} : Runs c K S (Comp.outOfFuel : P α) Q :=
  fun s hs => ⟨fun _ e h => by simp at h, fun a s' h => by simp at h⟩

theorem Runs.gets {f : PSt → α} {Q : α → Prop} (h : ∀ s, St c K S s → Q (f s)) : Runs c K S (gets f) Q := by
  intro s hs
  refine ⟨fun _ e he => by simp [Chaff.gets] at he, fun a s' e => ?_⟩
  unfold Chaff.gets at e
  injection e with e1 e2
  subst e1 e2
  exact ⟨h s hs, hs⟩

theorem Runs.mod {f : PSt → PSt} (h : ∀ s, St c K S s → St c K S (f s)) : Runs c K S (Comp.modS f) (fun _ => True) := by
  intro s hs
  refine ⟨fun _ e he => by simp at he, fun a s' e => ?_⟩
  rw [modS_apply] at e
  injection e with e1 e2
  subst e2
  exact ⟨trivial, h s hs⟩

theorem Runs.ite {p : Prop} [Decidable p] {a b : P α} {Q : α → Prop} (ha : p → Runs c K S a Q) (hb : ¬ p → Runs c K S b Q) :
    Runs c K S (if p then a else b) Q := by
  by_cases h : p
  · rw [if_pos h]; exact ha h
  · rw [if_neg h]; exact hb h

/-- A computation that also knows that it runs from a good state. -/
theorem Runs.of_calm {m : P α} {Q : α → Prop} (h1 : K.calm → Runs c K S m Q) (h2 : ¬ K.calm → Runs c K S m Q) :
    Runs c K S m Q := by
  by_cases h : K.calm
  · exact h1 h
  · exact h2 h

/-! ## Simple steps -/

theorem runs_addErrorSub (a : String) (e : Err) : Runs c K S (addErrorSub a e) (fun _ => True) := Runs.mod fun _ h => h
theorem runs_addError (e : Err) : Runs c K S (addError e) (fun _ => True) := runs_addErrorSub _ _
theorem runs_warnMerge (f : String) (e : Err) : Runs c K S (warnMerge f e) (fun _ => True) := runs_addErrorSub _ _
theorem runs_warnField (f : String) (e : Err) : Runs c K S (warnField f e) (fun _ => True) := runs_addErrorSub _ _

theorem runs_currentScope : Runs c K S currentScope (fun r => K.calm → HashFree r) := by
  unfold currentScope
  refine Runs.gets fun s hs hc => ?_
  split
  · exact hs.resolving hc
  · exact hs.parsing hc

theorem runs_setResolving {doc : String} (h : K.calm → HashFree doc) : Runs c K S (setResolving doc) (fun _ => True) :=
  Runs.mod fun s hs => ⟨hs.refs, hs.docs, hs.aliases, hs.queue, hs.parsing, h, hs.res⟩

theorem runs_hasRes (a b : String) : Runs c K S (hasRes a b) (fun _ => True) := Runs.gets fun _ _ => trivial

theorem splitBar_prefix : ∀ (l r : List Char) (ch : Char), ch ∈ (splitBar (l ++ '|' :: r)).1 → ch ∈ l := by
  intro l
  induction l with
  | nil => intro r ch h; simp [splitBar] at h
  | cons x t ih =>
    intro r ch h
    simp only [List.cons_append, splitBar] at h
    split at h
    · simp at h
    · rcases List.mem_cons.1 h with rfl | h
      · exact List.mem_cons_self ..
      · exact List.mem_cons_of_mem _ (ih r ch h)

theorem resKey_free {a b : String} (h : HashFree a) : '#' ∉ (splitBar (resKey a b).toList).1 := by
  intro hm
  unfold resKey at hm
  rw [String.toList_append, String.toList_append, show "|".toList = ['|'] from rfl, List.append_assoc] at hm
  exact h (splitBar_prefix _ _ _ hm)

theorem runs_pushRes {a b : String} (h : K.calm → HashFree a) : Runs c K S (pushRes a b) (fun _ => True) := by
  refine Runs.mod fun s hs => ⟨hs.refs, hs.docs, hs.aliases, hs.queue, hs.parsing, hs.resolving, fun hc r hr => ?_⟩
  rcases List.mem_cons.1 hr with rfl | hr
  · exact resKey_free (h hc)
  · exact hs.res hc r hr

/-! ## Scopes -/

theorem popPath_push {s s' : PSt} {part : String} (h : s'.path = s.path ++ part) :
    popPath part s' = .ok () { s' with path := s.path } := by
  unfold popPath
  have hl : part.length ≤ s'.path.length := by rw [h, String.length_append]; omega
  rw [if_pos hl]
  congr 2
  rw [h, String.toList_append, String.length_append]
  rw [show s.path.length + part.length - part.length = s.path.toList.length by rw [String.length_toList]; omega]
  rw [List.take_left', String.ofList_toList]
  rfl

/-- Running something inside a scope. -/
theorem runs_scopeThen {part : String} {m : P α} {R : α → Prop} (hk : Keeps c m) (hm : Runs c K S m R) {f : α → P β}
    {Q : β → Prop} (hf : ∀ a, R a → Runs c K S (f a) Q) : Runs c K S (do pushPath part; let a ← m; popPath part; f a) Q := by
  intro s hs
  have hs1 : St c K S { s with path := s.path ++ part } := hs
  obtain ⟨h1, h2⟩ := hm _ hs1
  constructor
  · intro hc e he
    rcases bind_panic.1 he with he | ⟨u, s1, e1, he⟩
    · simp [pushPath] at he
    unfold pushPath at e1
    rw [modS_apply] at e1
    injection e1 with _ e1
    subst e1
    rcases bind_panic.1 he with he | ⟨a, s2, e2, he⟩
    · exact h1 hc e he
    obtain ⟨ha, hs2⟩ := h2 a s2 e2
    have hp := popPath_push (hk _ _ _ e2).path
    rcases bind_panic.1 he with he | ⟨u, s3, e3, he⟩
    · rw [hp] at he; cases he
    rw [hp] at e3
    injection e3 with _ e3
    subst e3
    have hs3 : St c K S { s2 with path := s.path } := hs2
    exact (hf a ha _ hs3).1 hc e he
  · intro b s' hb
    obtain ⟨u, s1, e1, hb⟩ := bind_ok.1 hb
    unfold pushPath at e1
    rw [modS_apply] at e1
    injection e1 with _ e1
    subst e1
    obtain ⟨a, s2, e2, hb⟩ := bind_ok.1 hb
    obtain ⟨ha, hs2⟩ := h2 a s2 e2
    have hp := popPath_push (hk _ _ _ e2).path
    obtain ⟨u, s3, e3, hb⟩ := bind_ok.1 hb
    rw [hp] at e3
    injection e3 with _ e3
    subst e3
    have hs3 : St c K S { s2 with path := s.path } := hs2
    exact (hf a ha _ hs3).2 b s' hb

/-! ## Reference text -/

theorem splitHash_free : ∀ l : List Char, '#' ∉ (splitHash l).1 := by
  intro l
  induction l with
  | nil => simp [splitHash]
  | cons x t ih =>
    simp only [splitHash]
    split
    · simp
    · rename_i h
      simp only [List.mem_cons, not_or]
      exact ⟨fun e => h e.symm, ih⟩

theorem splitHash_rest : ∀ l : List Char, (splitHash l).2 = l.dropWhile (fun ch => ch ≠ '#') := by
  intro l
  induction l with
  | nil => simp [splitHash]
  | cons x t ih =>
    simp only [splitHash]
    by_cases h : x = '#'
    · simp [h]
    · simp [h, ih]

theorem runs_match {ref : String} (h : K.calm → '\n' ∉ fragmentOf ref) :
    Runs c K S (matchDocumentRegex ref) (fun m => HashFree m.1 ∧ m.2 = String.ofList (fragmentOf ref)) := by
  unfold matchDocumentRegex
  dsimp only
  refine Runs.ite (fun hn => Runs.fail fun hc => ?_) (fun _ => Runs.pure ⟨?_, ?_⟩)
  · rw [splitHash_rest] at hn
    exact h hc hn
  · unfold HashFree
    rw [String.toList_ofList]
    exact splitHash_free _
  · rw [splitHash_rest]
    rfl

/-- A path that is followed safely. -/
def PathSafe (path : String) : Prop :=
  path.toList.head? = some '#' ∧ '\n' ∉ path.toList ∧ ∀ x ∈ componentsOf path.toList, x ∉ riskyNames

theorem fragmentOf_head (l : List Char) : l.dropWhile (fun ch => ch ≠ '#') = [] ∨
    (l.dropWhile (fun ch => ch ≠ '#')).head? = some '#' := by
  induction l with
  | nil => simp
  | cons x t ih =>
    by_cases h : x = '#'
    · simp [h]
    · simpa [h] using ih

theorem pathSafe_orRoot {ref : String} (h : RefOk ref) : PathSafe (orRoot (String.ofList (fragmentOf ref))) := by
  unfold orRoot
  by_cases he : String.ofList (fragmentOf ref) = ""
  · rw [if_pos he]
    refine ⟨by decide +kernel, by decide +kernel, ?_⟩
    have : componentsOf "#".toList = [['#']] := by decide +kernel
    rw [this]
    intro x hx
    cases List.mem_singleton.1 hx
    decide +kernel
  · rw [if_neg he]
    refine ⟨?_, ?_, ?_⟩
    · rw [String.toList_ofList]
      rcases fragmentOf_head ref.toList with h0 | h0
      · exfalso
        apply he
        unfold fragmentOf
        rw [h0]
      · exact h0
    · rw [String.toList_ofList]; exact h.1
    · rw [String.toList_ofList]; exact h.2

theorem fragment_append {doc path : String} (hd : HashFree doc) (hp : path.toList.head? = some '#') :
    fragmentOf (doc ++ path) = path.toList := by
  unfold fragmentOf
  rw [String.toList_append]
  unfold HashFree at hd
  revert hd
  generalize doc.toList = l
  intro hd
  induction l with
  | nil =>
    cases hq : path.toList with
    | nil => simp
    | cons x t =>
      rw [hq] at hp
      simp at hp
      subst hp
      simp
  | cons x t ih =>
    simp only [List.mem_cons, not_or] at hd
    have : x ≠ '#' := fun e => hd.1 e.symm
    simp [this]
    simpa using ih hd.2

theorem refOk_append {doc path : String} (hd : HashFree doc) (hp : PathSafe path) : RefOk (doc ++ path) := by
  unfold RefOk
  rw [fragment_append hd hp.1]
  exact ⟨hp.2.1, hp.2.2⟩

/-- A document name and a path, from resolving a reference. -/
def IdPath (K : Care) (R : String → Prop) (p : String × String) : Prop := K.calm → HashFree p.1 ∧ R p.2

theorem httpResolveId_free {f : HttpOpts} {rel ref id : String} (hw : CalmWorld c) (h1 : HashFree rel) (h2 : HashFree ref)
    (h : httpResolveId c.url f rel ref = .ok id) : HashFree id := by
  unfold httpResolveId at h
  cases e1 : c.url.parse ref with
  | none => rw [e1] at h; cases h
  | some y =>
    rw [e1] at h
    dsimp only at h
    cases e2 : c.url.parse rel with
    | none => rw [e2] at h; cases h
    | some x =>
      rw [e2] at h
      dsimp only at h
      have hu := hw.urls rel ref x y e2 e1 h1 h2
      generalize hz : (if x.scheme = "http" ∨ x.scheme = "https" then c.url.resolve x y else y) = z at h
      split at h
      · cases h
      · split at h
        · cases h
        · injection h with h
          rw [← h, ← hz]
          split
          · exact hu.2
          · exact hu.1

theorem fileResolveId_free {f : List (List String) × Bool} {rel ref id : String} (hw : CalmWorld c)
    (h : fileResolveId c.url c.fs f rel ref = .ok id) : HashFree id := by
  unfold fileResolveId at h
  dsimp only at h
  cases e1 : c.url.parse ref with
  | none => rw [e1] at h; cases h
  | some y =>
    rw [e1] at h
    dsimp only at h
    split at h
    · cases h
    · generalize (if (trimFile ref).toList.head? = some '/' then trimFile ref else joinDir (trimFile rel) (trimFile ref)) = q at h
      cases e2 : c.fs.realPath q with
      | none => rw [e2] at h; cases h
      | some p =>
        rw [e2] at h
        dsimp only at h
        split at h
        · cases h
        · cases h
        · split at h
          · cases h
          · injection h with h
            rw [← h]
            unfold HashFree
            rw [String.toList_append]
            intro hm
            rcases List.mem_append.1 hm with hm | hm
            · revert hm; decide +kernel
            · exact hw.paths q p e2 hm

theorem runs_resolveDocumentRef (hw : WorldOk c K) {R : String → Prop} {doc path : String} (hd : K.calm → HashFree doc)
    (hp : K.calm → R path) : Runs c K S (resolveDocumentRef c doc path) (ExOk (IdPath K R)) := by
  intro s hs
  have hscope : K.calm → HashFree (if s.resolvingId ≠ "" then s.resolvingId else s.parsingId) := by
    intro hc
    split
    · exact hs.resolving hc
    · exact hs.parsing hc
  have key : ∃ r, resolveDocumentRef c doc path s = .ok r s ∧ ExOk (IdPath K R) r := by
    unfold resolveDocumentRef
    dsimp only
    split
    · rename_i a ha
      refine ⟨_, rfl, exOk_ok fun hc => ?_⟩
      exfalso
      rw [hs.aliases hc] at ha
      rcases ite_or ha with ha | ha
      · simp [lookupKV] at ha
      · cases ha
    · split
      · exact ⟨_, rfl, exOk_ok fun hc => ⟨hscope hc, hp hc⟩⟩
      · split
        · exact ⟨_, rfl, exOk_error _⟩
        · rename_i k hk
          split
          · exact ⟨_, rfl, exOk_error _⟩
          · rename_i id hid
            refine ⟨_, rfl, exOk_ok fun hc => ⟨?_, hp hc⟩⟩
            unfold fetcherResolveId at hid
            split at hid
            · split at hid
              · exact httpResolveId_free (hw.calm hc) (hscope hc) (hd hc) hid
              · cases hid
            · split at hid
              · exact fileResolveId_free (hw.calm hc) hid
              · cases hid
  obtain ⟨r, e, hr⟩ := key
  rw [e]
  refine ⟨fun _ e he => (by cases he), fun a s' h => ?_⟩
  injection h with h1 h2
  subst h1 h2
  exact ⟨hr, hs⟩

theorem runs_resolveIdAndPath (hw : WorldOk c K) {R : String → Prop} {ref : String} (hn : K.calm → '\n' ∉ fragmentOf ref)
    (hp : K.calm → R (orRoot (String.ofList (fragmentOf ref)))) :
    Runs c K S (resolveIdAndPath c ref) (ExOk (IdPath K R)) := by
  unfold resolveIdAndPath
  refine Runs.bind (runs_match hn) fun m hm => Runs.ite (fun _ => ?_) (fun _ => ?_)
  · refine Runs.bind runs_currentScope fun d hd => Runs.pure (exOk_ok fun hc => ⟨hd hc, ?_⟩)
    rw [hm.2]; exact hp hc
  · refine runs_resolveDocumentRef hw (fun _ => hm.1) fun hc => ?_
    rw [hm.2]; exact hp hc

theorem runs_queueDocument {doc : String} (h : K.calm → HashFree doc) : Runs c K S (queueDocument doc) (fun _ => True) := by
  refine Runs.mod fun s hs => ?_
  split
  · refine ⟨hs.refs, hs.docs, hs.aliases, fun hc d hd => ?_, hs.parsing, hs.resolving, hs.res⟩
    rcases List.mem_append.1 hd with hd | hd
    · exact hs.queue hc d hd
    · cases List.mem_singleton.1 hd; exact h hc
  · exact hs

theorem runs_handleDeferred (hw : WorldOk c K) {ref : String} (h : K.calm → RefOk ref) :
    Runs c K S (handleDeferred c ref) (fun _ => True) := by
  unfold handleDeferred
  refine Runs.bind (runs_match fun hc => (h hc).1) fun m hm => Runs.ite (fun _ => ?_) (fun _ => ?_)
  · exact Runs.bind runs_currentScope fun d hd => Runs.pure trivial
  · refine Runs.bind (runs_resolveDocumentRef hw (R := fun _ => True) (fun _ => hm.1) fun _ => trivial) fun r hr => ?_
    cases r with
    | error e => exact Runs.pure trivial
    | ok p => exact Runs.bind (runs_queueDocument fun hc => (hr p rfl hc).1) fun _ _ => Runs.pure trivial

/-! ## Documents -/

mutual
theorem walkIds_clean (u : UrlSys) (doc : String) : ∀ (v : JVal) (path : String) (w : IdWalk), Clean v →
    walkIds u doc v path w = w
  | .obj m, path, w, h => by
    have hm : (∀ p ∈ m, p.1 = "$id" → ∀ t, p.2 ≠ .str t) ∧ ∀ p ∈ m, Clean p.2 := by
      cases h with
      | atom h => exact absurd rfl (h m)
      | obj h1 h2 h3 => exact ⟨h1, h3⟩
    unfold walkIds
    rw [visitId_clean u doc m path w hm.1]
    exact walkIdFields_clean u doc m path w hm.2
  | .null, _, _, _ => by unfold walkIds; rfl
  | .bool _, _, _, _ => by unfold walkIds; rfl
  | .num _, _, _, _ => by unfold walkIds; rfl
  | .str _, _, _, _ => by unfold walkIds; rfl
  | .arr _, _, _, _ => by unfold walkIds; rfl
termination_by structural v => v
theorem walkIdFields_clean (u : UrlSys) (doc : String) : ∀ (l : List (String × JVal)) (path : String) (w : IdWalk),
    (∀ p ∈ l, Clean p.2) → walkIdFields u doc l path w = w
  | [], _, _, _ => by unfold walkIdFields; rfl
  | p :: t, path, w, h => by
    unfold walkIdFields
    rw [walkIdField_clean u doc p path w (h p (List.mem_cons_self ..))]
    exact walkIdFields_clean u doc t path w fun q hq => h q (List.mem_cons_of_mem _ hq)
termination_by structural l => l
theorem walkIdField_clean (u : UrlSys) (doc : String) : ∀ (p : String × JVal) (path : String) (w : IdWalk),
    Clean p.2 → walkIdField u doc p path w = w
  | (k, v), path, w, h => by
    unfold walkIdField
    exact walkIdMember_clean u doc v _ w h
termination_by structural p => p
theorem walkIdMember_clean (u : UrlSys) (doc : String) : ∀ (v : JVal) (path : String) (w : IdWalk), Clean v →
    walkIdMember u doc v path w = w
  | .obj m, path, w, h => by
    have hm : (∀ p ∈ m, p.1 = "$id" → ∀ t, p.2 ≠ .str t) ∧ ∀ p ∈ m, Clean p.2 := by
      cases h with
      | atom h => exact absurd rfl (h m)
      | obj h1 h2 h3 => exact ⟨h1, h3⟩
    unfold walkIdMember
    rw [visitId_clean u doc m path w hm.1]
    exact walkIdFields_clean u doc m path w hm.2
  | .arr l, path, w, h => by
    have hm : ∀ p ∈ l, Clean p := by
      cases h with
      | atom h1 h => exact absurd rfl (h l)
      | arr h => exact h
    unfold walkIdMember
    exact walkIdItems_clean u doc l path 0 w hm
  | .null, _, _, _ => by unfold walkIdMember; rfl
  | .bool _, _, _, _ => by unfold walkIdMember; rfl
  | .num _, _, _, _ => by unfold walkIdMember; rfl
  | .str _, _, _, _ => by unfold walkIdMember; rfl
termination_by structural v => v
theorem walkIdItems_clean (u : UrlSys) (doc : String) : ∀ (l : List JVal) (path : String) (i : Nat) (w : IdWalk),
    (∀ v ∈ l, Clean v) → walkIdItems u doc l path i w = w
  | [], _, _, _, _ => by unfold walkIdItems; rfl
  | v :: t, path, i, w, h => by
    unfold walkIdItems
    rw [walkIds_clean u doc v _ w (h v (List.mem_cons_self ..))]
    exact walkIdItems_clean u doc t path (i + 1) w fun q hq => h q (List.mem_cons_of_mem _ hq)
termination_by structural l => l
theorem visitId_clean (u : UrlSys) (doc : String) (m : List (String × JVal)) (path : String) (w : IdWalk)
    (h : ∀ p ∈ m, p.1 = "$id" → ∀ t, p.2 ≠ .str t) : visitId u doc m path w = w := by
  unfold visitId
  split
  · rename_i t ht
    exact absurd rfl (h _ (lookupKV_mem ht) rfl t)
  · rfl
end

theorem collect_clean {u : UrlSys} {base doc : String} {n : SchemaNode} (h : Clean (encodeNode n)) :
    collectSubSchemaIds u base doc n = [] := by
  unfold collectSubSchemaIds
  rw [walkIds_clean u doc _ _ _ h]

theorem runs_addDocument {id : String} {n : SchemaNode} (h : Every c K n) :
    Runs c K S (addDocument c id n) (fun _ => True) := by
  refine Runs.mod fun s hs => ?_
  split
  · exact hs
  · refine ⟨hs.refs, fun p hp => ?_, fun hc => ?_, hs.queue, hs.parsing, hs.resolving, hs.res⟩
    · rcases List.mem_cons.1 hp with rfl | hp
      · exact h
      · exact hs.docs p hp
    · show addAliases s.aliases _ = []
      rw [hs.aliases hc, collect_clean ((encode_tame h).2 hc)]
      rfl

theorem runs_fetchDocument (hw : WorldOk c K) (k : FetcherKind) (id : String) :
    Runs c K S (fetchDocument c k id) (ExOk (Every c K)) := by
  intro s hs
  have key : ∃ r s', fetchDocument c k id s = .ok r s' ∧ ExOk (Every c K) r ∧ St c K S s' := by
    unfold fetchDocument
    cases k with
    | http =>
      dsimp only
      cases e : c.httpGet id with
      | none => exact ⟨_, _, rfl, exOk_error _, hs⟩
      | some v =>
        dsimp only
        cases e2 : decodeNode v with
        | none => exact ⟨_, _, rfl, exOk_error _, hs⟩
        | some n => exact ⟨_, _, rfl, exOk_ok (decode_every (hw.tame.1 _ _ e) e2), hs⟩
    | file =>
      dsimp only
      cases e : c.fs.read (trimFile id) with
      | none => exact ⟨_, _, rfl, exOk_error _, hs⟩
      | some v =>
        dsimp only
        cases e2 : decodeNode v with
        | none => exact ⟨_, _, rfl, exOk_error _, hs⟩
        | some n => exact ⟨_, _, rfl, exOk_ok (decode_every (hw.tame.2 _ _ e) e2), hs⟩
  obtain ⟨r, s1, e, hr, hs1⟩ := key
  rw [e]
  refine ⟨fun _ e he => (by cases he), fun a s' h => ?_⟩
  injection h with h1 h2
  subst h1 h2
  exact ⟨hr, hs1⟩

theorem fragment_free {d : String} (h : HashFree d) : fragmentOf d = [] := by
  unfold fragmentOf HashFree at *
  revert h
  generalize d.toList = l
  intro h
  induction l with
  | nil => rfl
  | cons x t ih =>
    simp only [List.mem_cons, not_or] at h
    have : x ≠ '#' := fun e => h.1 e.symm
    simp [this]
    simpa using ih h.2

theorem Runs.getS {Q : PSt → Prop} (h : ∀ s, St c K S s → Q s) : Runs c K S (Comp.getS : P PSt) Q := by
  intro s hs
  refine ⟨fun _ e he => by simp at he, fun a s' e => ?_⟩
  rw [getS_apply] at e
  injection e with e1 e2
  subst e1 e2
  exact ⟨h s hs, hs⟩

theorem runs_resolveDocument (hw : WorldOk c K) {ref : String} (h : K.calm → HashFree ref) :
    Runs c K S (resolveDocument c ref) (ExOk (Every c K)) := by
  unfold resolveDocument
  refine Runs.bind (runs_match fun hc => by rw [fragment_free (h hc)]; simp) fun m hm => ?_
  refine Runs.bind (Runs.getS fun _ _ => trivial) fun s _ => Runs.ite (fun _ => Runs.pure (exOk_error _)) fun _ => ?_
  split
  · exact Runs.pure (exOk_error _)
  · refine Runs.bind (runs_fetchDocument hw _ _) fun d hd => ?_
    cases d with
    | error e => exact Runs.pure (exOk_error _)
    | ok n => exact Runs.bind (runs_addDocument (hd n rfl)) fun _ _ => Runs.pure (exOk_ok (hd n rfl))

theorem runs_loadDocument (hw : WorldOk c K) {doc : String} (h : K.calm → HashFree doc) :
    Runs c K S (loadDocument c doc) (ExOk (Every c K)) := by
  unfold loadDocument
  refine Runs.bind (Runs.gets (Q := fun r => ∀ d, r = some d → Every c K d) fun s hs d hd => ?_) fun r hr => ?_
  · exact hs.docs _ (lookupKV_mem hd)
  · split
    · exact Runs.pure (exOk_ok (hr _ rfl))
    · exact runs_resolveDocument hw h

/-! ## Following a path -/

theorem components_token : ∀ l : List Char, (pathToken l).1 ∈ componentsOf l ∧
    ((pathToken l).2 ≠ [] → ∀ x ∈ componentsOf (pathToken l).2, x ∈ componentsOf l) := by
  intro l
  induction l with
  | nil => simp [pathToken, componentsOf]
  | cons ch t ih =>
    simp only [pathToken, componentsOf]
    split
    · exact ⟨List.mem_cons_self .., fun _ x hx => List.mem_cons_of_mem _ hx⟩
    · cases hq : componentsOf t with
      | nil => rw [hq] at ih; simp at ih
      | cons y rest =>
        dsimp only
        rw [hq] at ih
        have hhead : ∀ (t : List Char) y rest, componentsOf t = y :: rest → (pathToken t).1 = y ∧
            ((pathToken t).2 ≠ [] → ∀ x ∈ componentsOf (pathToken t).2, x ∈ rest) := by
          intro t
          induction t with
          | nil => intro y rest h; simp [componentsOf] at h; obtain ⟨rfl, rfl⟩ := h; simp [pathToken]
          | cons d t ih =>
            intro y rest h
            simp only [pathToken, componentsOf] at h ⊢
            split at h
            · rename_i hd
              rw [if_pos hd]
              injection h with h1 h2
              subst h1 h2
              exact ⟨rfl, fun _ x hx => hx⟩
            · rename_i hd
              rw [if_neg hd]
              cases hq : componentsOf t with
              | nil =>
                exfalso
                revert hq
                cases t with
                | nil => simp [componentsOf]
                | cons e t =>
                  simp only [componentsOf]
                  split
                  · simp
                  · split <;> simp
              | cons z r =>
                rw [hq] at h
                dsimp only at h
                injection h with h1 h2
                subst h1 h2
                obtain ⟨i1, i2⟩ := ih z r hq
                exact ⟨by rw [i1], i2⟩
        obtain ⟨h1, h2⟩ := hhead t y rest hq
        refine ⟨by rw [h1]; exact List.mem_cons_self .., fun hne x hx => List.mem_cons_of_mem _ (h2 hne x hx)⟩

/-- No component of the path is risky. -/
def NoRisky (l : List Char) : Prop := l ≠ [] → ∀ x ∈ componentsOf l, x ∉ riskyNames

theorem NoRisky.rest {l : List Char} (h : NoRisky l) : NoRisky (pathToken l).2 := by
  intro hne x hx
  refine h ?_ x ((components_token l).2 hne x hx)
  intro e
  subst e
  exact hne rfl

theorem NoRisky.head {l : List Char} (h : NoRisky l) (hne : l ≠ []) : (pathToken l).1 ∉ riskyNames :=
  h hne _ (components_token l).1

theorem runs_resolveProperty {sub : Option SchemaNode → List Char → P (Except Err SchemaNode)} {A : String → Prop}
    (h : ∀ n p, OptAll (Every c K) n → (K.calm → NoRisky p) → Runs c K S (sub n p) (ExOk (Every c K)))
    {nodes : Option (List (String × SchemaNode))} (hn : MapAll A (Every c K) nodes) {path : List Char}
    (hp : K.calm → NoRisky path) : Runs c K S (resolveProperty sub nodes path) (ExOk (Every c K)) := by
  unfold resolveProperty
  split
  · exact Runs.pure (exOk_error _)
  · split
    · exact Runs.pure (exOk_error _)
    · rename_i l _ n hl
      refine h _ _ (fun x e => ?_) fun hc => (hp hc).rest
      cases e
      exact (hn l rfl _ (lookupKV_mem hl)).2

theorem runs_resolveSlice {sub : Option SchemaNode → List Char → P (Except Err SchemaNode)} (hc : ¬ K.calm)
    (h : ∀ n p, OptAll (Every c K) n → (K.calm → NoRisky p) → Runs c K S (sub n p) (ExOk (Every c K)))
    {nodes : Option (List SchemaNode)} (hn : ListAll (Every c K) nodes) {path : List Char} :
    Runs c K S (resolveSlice sub nodes path) (ExOk (Every c K)) := by
  unfold resolveSlice
  split
  · exact Runs.pure (exOk_error _)
  · split
    · exact Runs.pure (exOk_error _)
    · refine Runs.ite (fun _ => Runs.pure (exOk_error _)) fun _ => ?_
      split
      · exact Runs.fail hc
      · rename_i l _ _ _ n hl
        refine h _ _ (fun x e => ?_) fun hc' => absurd hc' hc
        cases e
        exact hn _ rfl n (List.mem_of_getElem? hl)

theorem runs_resolveFalseOrSchema {sub : Option SchemaNode → List Char → P (Except Err SchemaNode)} (hc : ¬ K.calm)
    (h : ∀ n p, OptAll (Every c K) n → (K.calm → NoRisky p) → Runs c K S (sub n p) (ExOk (Every c K)))
    {node : Option (NodeOrFalse SchemaNode)} (hn : OrFalseAll (Every c K) node) {path : List Char} :
    Runs c K S (resolveFalseOrSchema sub node path) (ExOk (Every c K)) := by
  unfold resolveFalseOrSchema
  split
  · exact Runs.fail hc
  · exact Runs.ite (fun _ => Runs.pure (exOk_error _)) fun _ => h _ _ (hn _ rfl) fun hc' => absurd hc' hc

theorem runs_resolveItems {sub : Option SchemaNode → List Char → P (Except Err SchemaNode)} (hc : ¬ K.calm)
    (h : ∀ n p, OptAll (Every c K) n → (K.calm → NoRisky p) → Runs c K S (sub n p) (ExOk (Every c K)))
    {items : Option (ItemsData SchemaNode)} (hn : ItemsAll (Every c K) items) {path : List Char} :
    Runs c K S (resolveItems sub items path) (ExOk (Every c K)) := by
  unfold resolveItems
  split
  · exact Runs.fail hc
  · exact Runs.ite (fun _ => h _ _ (hn _ rfl).1 fun hc' => absurd hc' hc) fun _ => runs_resolveSlice hc h (hn _ rfl).2

theorem runs_subPath (k : Nat) : ∀ n p, OptAll (Every c K) n → (K.calm → NoRisky p) →
    Runs c K S (subPath k n p) (ExOk (Every c K)) := by
  induction k with
  | zero => intro n p _ _; exact Runs.oom
  | succ k ih =>
    intro n p hn hp
    cases n with
    | none => exact Runs.pure (exOk_error _)
    | some n =>
      have hk := (hn n rfl).kids
      unfold subPath
      dsimp only
      refine Runs.ite (fun _ => Runs.pure (exOk_ok (hn n rfl))) fun hpath => ?_
      have hr : K.calm → NoRisky (pathToken p).2 := fun hc => (hp hc).rest
      have hne : p ≠ [] := by
        intro e
        subst e
        exact hpath rfl
      have risky : ∀ name, String.ofList (pathToken p).1 = name → name.toList ∈ riskyNames → ¬ K.calm := by
        intro name e hm hc
        refine (hp hc).head hne ?_
        rw [← e, String.toList_ofList] at hm
        exact hm
      refine Runs.ite (fun _ => runs_resolveProperty ih hk.properties hr) fun _ => ?_
      refine Runs.ite (fun _ => runs_resolveProperty ih hk.patternProperties hr) fun _ => ?_
      refine Runs.ite (fun e => runs_resolveFalseOrSchema (risky _ e (by decide +kernel)) ih hk.additionalProperties) fun _ => ?_
      refine Runs.ite (fun e => runs_resolveItems (risky _ e (by decide +kernel)) ih hk.items) fun _ => ?_
      refine Runs.ite (fun e => runs_resolveSlice (risky _ e (by decide +kernel)) ih hk.prefixItems) fun _ => ?_
      refine Runs.ite (fun _ => ih _ _ hk.contains hr) fun _ => ?_
      refine Runs.ite (fun e => runs_resolveFalseOrSchema (risky _ e (by decide +kernel)) ih hk.additionalItems) fun _ => ?_
      refine Runs.ite (fun e => runs_resolveFalseOrSchema (risky _ e (by decide +kernel)) ih hk.unevaluatedItems) fun _ => ?_
      refine Runs.ite (fun e => runs_resolveSlice (risky _ e (by decide +kernel)) ih hk.allOf) fun _ => ?_
      refine Runs.ite (fun e => runs_resolveSlice (risky _ e (by decide +kernel)) ih hk.anyOf) fun _ => ?_
      refine Runs.ite (fun e => runs_resolveSlice (risky _ e (by decide +kernel)) ih hk.oneOf) fun _ => ?_
      refine Runs.ite (fun _ => ih _ _ (hk.not.mono fun _ h => h.2) hr) fun _ => ?_
      refine Runs.ite (fun _ => ih _ _ hk.ifN hr) fun _ => ?_
      refine Runs.ite (fun _ => ih _ _ hk.thenN hr) fun _ => ?_
      refine Runs.ite (fun _ => ih _ _ hk.elseN hr) fun _ => ?_
      refine Runs.ite (fun _ => runs_resolveProperty ih hk.definitions hr) fun _ => ?_
      refine Runs.ite (fun _ => runs_resolveProperty ih hk.defs hr) fun _ => ?_
      refine Runs.ite (fun _ => ih _ _ hn hr) fun _ => ?_
      exact Runs.pure (exOk_error _)

theorem runs_resolveSub {n : Option SchemaNode} {p : String} (hn : OptAll (Every c K) n) (hp : K.calm → PathSafe p) :
    Runs c K S (resolveSubReferencePath n p) (ExOk (Every c K)) :=
  runs_subPath _ _ _ hn fun hc _ => (hp hc).2.2

theorem runs_resolvePath (hw : WorldOk c K) {ref : String} (h : K.calm → RefOk ref) :
    Runs c K S (resolvePath c ref) (ExOk (fun p => Every c K p.1)) := by
  unfold resolvePath
  refine Runs.bind (runs_match fun hc => (h hc).1) fun m hm => ?_
  have hp : K.calm → PathSafe (orRoot m.2) := fun hc => by rw [hm.2]; exact pathSafe_orRoot (h hc)
  dsimp only
  refine Runs.ite (fun _ => ?_) (fun _ => ?_)
  · refine Runs.bind runs_currentScope fun scope _ => ?_
    refine Runs.bind (Runs.gets (Q := OptAll (Every c K)) fun s hs d hd => hs.docs _ (lookupKV_mem hd)) fun d hd => ?_
    refine Runs.bind (runs_resolveSub hd hp) fun r hr => ?_
    cases r with
    | error e => exact Runs.pure (exOk_error _)
    | ok n => exact Runs.pure (exOk_ok (hr n rfl))
  · refine Runs.bind (runs_resolveDocumentRef hw (R := PathSafe) (fun _ => hm.1) hp) fun r hr => ?_
    cases r with
    | error e => exact Runs.pure (exOk_error _)
    | ok p =>
      have hp' := hr p rfl
      refine Runs.bind (runs_loadDocument hw fun hc => (hp' hc).1) fun d hd => ?_
      cases d with
      | error e => exact Runs.pure (exOk_error _)
      | ok document =>
        refine Runs.bind (runs_resolveSub (fun x e => by cases e; exact hd _ rfl) fun hc => (hp' hc).2) fun r hr => ?_
        cases r with
        | error e => exact Runs.pure (exOk_error _)
        | ok n =>
          exact Runs.bind (runs_setResolving fun hc => (hp' hc).1) fun _ _ => Runs.pure (exOk_ok (hr n rfl))

/-! ## Rewriting references -/

theorem runs_rewriteRef (hw : WorldOk c K) {ref : String} (h : K.calm → RefOk ref) :
    Runs c K S (rewriteRef c ref) (ExOk (fun t => K.calm → RefOk t)) := by
  unfold rewriteRef
  refine Runs.bind (runs_resolveIdAndPath hw (R := PathSafe) (fun hc => (h hc).1) fun hc => pathSafe_orRoot (h hc))
    fun r hr => ?_
  cases r with
  | error e => exact Runs.pure (exOk_error _)
  | ok p => exact Runs.pure (exOk_ok fun hc => refOk_append (hr p rfl hc).1 (hr p rfl hc).2)

/-- The condition on a member, under which it is rewritten without a panic. -/
def MemberClean (K : Care) (p : String × JVal) : Prop :=
  K.calm → Clean p.2 ∧ (p.1 = "$ref" → ∀ r, p.2 = .str r → RefOk r)

theorem clean_members {m : List (String × JVal)} (h : K.calm → Clean (.obj m)) : ∀ p ∈ m, MemberClean K p := by
  intro p hp hc
  cases h hc with
  | atom h => exact absurd rfl (h m)
  | obj h1 h2 h3 => exact ⟨h3 p hp, h2 p hp⟩

theorem clean_items {l : List JVal} (h : K.calm → Clean (.arr l)) : ∀ v ∈ l, K.calm → Clean v := by
  intro v hv hc
  cases h hc with
  | atom h1 h => exact absurd rfl (h l)
  | arr h => exact h v hv

mutual
theorem runs_rewriteObj (hw : WorldOk c K) : ∀ l : List (String × JVal), (∀ p ∈ l, MemberClean K p) →
    Runs c K S (rewriteObj c l) (ExOk (fun l' => ∀ q ∈ l', ∃ p ∈ l, GoodM c K p q))
  | [], _ => by unfold rewriteObj; exact Runs.pure (exOk_ok (by simp))
  | p :: t, h => by
    have h1 := runs_rewriteMember hw p (h p (List.mem_cons_self ..))
    have h2 := runs_rewriteObj hw t fun q hq => h q (List.mem_cons_of_mem _ hq)
    unfold rewriteObj
    refine Runs.bind h1 fun r hr => ?_
    cases r with
    | error e => exact Runs.pure (exOk_error _)
    | ok o =>
      cases o with
      | none => exact Runs.pure (exOk_ok fun q hq => ⟨q, hq, goodM_refl q⟩)
      | some q =>
        refine Runs.bind h2 fun r2 hr2 => ?_
        cases r2 with
        | error e => exact Runs.pure (exOk_error _)
        | ok l =>
          refine Runs.pure (exOk_ok fun x hx => ?_)
          rcases List.mem_cons.1 hx with rfl | hx
          · exact ⟨p, List.mem_cons_self .., hr _ rfl _ rfl⟩
          · obtain ⟨y, hy, hg⟩ := hr2 l rfl x hx
            exact ⟨y, List.mem_cons_of_mem _ hy, hg⟩
termination_by structural l => l
theorem runs_rewriteMember (hw : WorldOk c K) : ∀ p : String × JVal, MemberClean K p →
    Runs c K S (rewriteMember c p) (ExOk (fun o => ∀ q, o = some q → GoodM c K p q))
  | (k, v), h => by unfold rewriteMember; exact runs_rewriteValue hw k v h
termination_by structural p => p
theorem runs_rewriteValue (hw : WorldOk c K) (k : String) : ∀ v : JVal, MemberClean K (k, v) →
    Runs c K S (rewriteValue c k v) (ExOk (fun o => ∀ q, o = some q → GoodM c K (k, v) q))
  | .str s, h => by
    unfold rewriteValue
    refine Runs.ite (fun e => ?_) (fun _ => Runs.pure (exOk_ok (by rintro q ⟨⟩; exact goodM_refl _)))
    refine Runs.bind (runs_rewriteRef hw fun hc => (h hc).2 e s rfl) fun r hr => ?_
    cases r with
    | error e => exact Runs.pure (exOk_error _)
    | ok t =>
      refine Runs.pure (exOk_ok ?_)
      rintro q ⟨⟩
      exact ⟨rfl, .inr ⟨e, ⟨s, rfl⟩, t, rfl, hr t rfl⟩⟩
  | .obj m, h => by
    have h1 := runs_rewriteObj hw m (clean_members fun hc => (h hc).1)
    unfold rewriteValue
    refine Runs.ite (fun e => Runs.pure (exOk_ok (by rintro q ⟨⟩))) (fun _ => ?_)
    refine Runs.bind h1 fun r hr => ?_
    cases r with
    | error e => exact Runs.pure (exOk_error _)
    | ok t =>
      refine Runs.pure (exOk_ok ?_)
      rintro q ⟨⟩
      exact ⟨rfl, .inl (good_obj (hr t rfl))⟩
  | .arr l, h => by
    have h1 := runs_rewriteItems hw l (clean_items fun hc => (h hc).1)
    unfold rewriteValue
    refine Runs.ite (fun e => Runs.pure (exOk_ok (by rintro q ⟨⟩))) (fun _ => ?_)
    refine Runs.bind h1 fun r hr => ?_
    cases r with
    | error e => exact Runs.pure (exOk_error _)
    | ok t =>
      refine Runs.pure (exOk_ok ?_)
      rintro q ⟨⟩
      exact ⟨rfl, .inl (good_arr (hr t rfl).1 (hr t rfl).2)⟩
  | .null, h => by
    unfold rewriteValue
    exact Runs.ite (fun e => Runs.pure (exOk_ok (by rintro q ⟨⟩))) (fun _ => Runs.pure (exOk_ok (by rintro q ⟨⟩; exact goodM_refl _)))
  | .bool _, h => by
    unfold rewriteValue
    exact Runs.ite (fun e => Runs.pure (exOk_ok (by rintro q ⟨⟩))) (fun _ => Runs.pure (exOk_ok (by rintro q ⟨⟩; exact goodM_refl _)))
  | .num _, h => by
    unfold rewriteValue
    exact Runs.ite (fun e => Runs.pure (exOk_ok (by rintro q ⟨⟩))) (fun _ => Runs.pure (exOk_ok (by rintro q ⟨⟩; exact goodM_refl _)))
termination_by structural v => v
theorem runs_rewriteItems (hw : WorldOk c K) : ∀ l : List JVal, (∀ v ∈ l, K.calm → Clean v) →
    Runs c K S (rewriteItems c l) (ExOk (fun l' => (l' = [] → l = []) ∧ ∀ q ∈ l', ∃ p ∈ l, TameDecodes c K p q))
  | [], _ => by unfold rewriteItems; exact Runs.pure (exOk_ok (by simp))
  | v :: t, h => by
    have h1 := runs_rewriteItem hw v (h v (List.mem_cons_self ..))
    have h2 := runs_rewriteItems hw t fun q hq => h q (List.mem_cons_of_mem _ hq)
    unfold rewriteItems
    refine Runs.bind h1 fun r hr => ?_
    cases r with
    | error e => exact Runs.pure (exOk_error _)
    | ok o =>
      refine Runs.bind h2 fun r2 hr2 => ?_
      cases r2 with
      | error e => exact Runs.pure (exOk_error _)
      | ok l =>
        refine Runs.pure (exOk_ok ⟨by simp, fun x hx => ?_⟩)
        rcases List.mem_cons.1 hx with rfl | hx
        · exact ⟨v, List.mem_cons_self .., hr _ rfl⟩
        · obtain ⟨y, hy, hg⟩ := (hr2 l rfl).2 x hx
          exact ⟨y, List.mem_cons_of_mem _ hy, hg⟩
termination_by structural l => l
theorem runs_rewriteItem (hw : WorldOk c K) : ∀ v : JVal, (K.calm → Clean v) →
    Runs c K S (rewriteItem c v) (ExOk (TameDecodes c K v))
  | .obj m, h => by
    have h1 := runs_rewriteObj hw m (clean_members h)
    unfold rewriteItem
    refine Runs.bind h1 fun r hr => ?_
    cases r with
    | error e => exact Runs.pure (exOk_error _)
    | ok t => exact Runs.pure (exOk_ok (good_obj (hr t rfl)))
  | .null, _ => by unfold rewriteItem; exact Runs.pure (exOk_ok (good_refl _))
  | .bool _, _ => by unfold rewriteItem; exact Runs.pure (exOk_ok (good_refl _))
  | .num _, _ => by unfold rewriteItem; exact Runs.pure (exOk_ok (good_refl _))
  | .str _, _ => by unfold rewriteItem; exact Runs.pure (exOk_ok (good_refl _))
  | .arr _, _ => by unfold rewriteItem; exact Runs.pure (exOk_ok (good_refl _))
termination_by structural v => v
end

theorem runs_rewriteReferences (hw : WorldOk c K) {n : SchemaNode} (h : Every c K n) :
    Runs c K S (rewriteReferences c n) (ExOk (Every c K)) := by
  unfold rewriteReferences
  refine Runs.bind (runs_rewriteItem hw _ (encode_tame h).2) fun r hr => ?_
  cases r with
  | error e => exact Runs.pure (exOk_error _)
  | ok v =>
    dsimp only
    cases hd : decodeNode v with
    | none => exact Runs.pure (exOk_error _)
    | some n' => exact Runs.pure (exOk_ok (decode_every ((hr v rfl).1 (encode_tame h).1) hd))

end

end Chaff
