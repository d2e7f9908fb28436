import Verif.Lemmas.Ids
import Verif.Props.Library
import Verif.Props.RefPath
/-!
# C80: identifiers of embedded schemas
-/

namespace Chaff
open Comp

/-! ## The table of identifiers -/

theorem pointer_trail (ts : List String) : pointerText ts = "#" ++ trail ts := by
  apply String.toList_inj.1
  rw [String.toList_append, trail_toList]
  cases ts with
  | nil => rfl
  | cons t ts =>
    show ((t :: ts).foldl (fun acc x => acc ++ "/" ++ x) "#").toList = _
    rw [foldl_slash]

theorem lookup_append {β : Type} {a b : List (String × β)} {k : String} :
    lookupKV (a ++ b) k = (lookupKV a k).or (lookupKV b k) := by
  induction a with
  | nil => rfl
  | cons p t ih =>
    obtain ⟨k', v⟩ := p
    rw [List.cons_append]
    show (if k' = k then some v else lookupKV (t ++ b) k) = (if k' = k then some v else lookupKV t k).or _
    split
    · rfl
    · exact ih

theorem lookup_addAliases (old new : List (String × (String × String))) (k : String) :
    lookupKV (addAliases old new) k = (lookupKV old k).or (lookupKV new k) := by
  unfold addAliases
  induction new generalizing old with
  | nil => simp [lookupKV]
  | cons p t ih =>
    obtain ⟨k', v⟩ := p
    rw [List.foldl_cons, ih]
    dsimp only
    split
    · rename_i h
      rw [show lookupKV ((k', v) :: t) k = if k' = k then some v else lookupKV t k from rfl]
      split
      · rename_i e
        subst e
        obtain ⟨x, hx⟩ := Option.isSome_iff_exists.1 h
        rw [hx]; rfl
      · rfl
    · rw [lookup_append, Option.or_assoc]
      congr 1
      show (if k' = k then some v else none).or _ = if k' = k then some v else lookupKV t k
      split <;> rfl

/-- The base of a document: its own identifier when that is absolute, otherwise the name it is read by. -/
def DocumentBase (u : UrlSys) (name : String) (n : SchemaNode) (base : String) : Prop :=
  (n.id = some base ∧ ∃ x, u.parse base = some x ∧ x.scheme ≠ "") ∨
  (base = name ∧ ∀ i x, n.id = some i → u.parse i = some x → x.scheme = "")

theorem documentBase_iff {u : UrlSys} {name : String} {n : SchemaNode} {base : String} :
    DocumentBase u name n base ↔ base = baseURIOf u name n := by
  unfold DocumentBase baseURIOf isAbsoluteURI
  cases hi : n.id with
  | none => simp
  | some i =>
    dsimp only
    cases hp : u.parse i with
    | none =>
      simp only [Bool.false_eq_true, if_false]
      constructor
      · rintro (⟨h, x, hx, _⟩ | ⟨h, _⟩)
        · injection h with h; subst h; rw [hp] at hx; cases hx
        · exact h
      · intro h
        refine Or.inr ⟨h, fun j x hj hx => ?_⟩
        injection hj with hj; subst hj; rw [hp] at hx; cases hx
    | some x =>
      dsimp only
      by_cases hs : x.scheme = ""
      · rw [if_neg (by simp [hs])]
        constructor
        · rintro (⟨h, y, hy, hne⟩ | ⟨h, _⟩)
          · injection h with h; subst h; rw [hp] at hy; injection hy with hy; subst hy; exact (hne hs).elim
          · exact h
        · intro h
          refine Or.inr ⟨h, fun j y hj hy => ?_⟩
          injection hj with hj; subst hj; rw [hp] at hy; injection hy with hy; subst hy; exact hs
      · rw [if_pos (by simp [hs])]
        constructor
        · rintro (⟨h, _⟩ | ⟨_, h⟩)
          · injection h with h; exact h.symm
          · exact (hs (h i x rfl hp)).elim
        · rintro rfl
          exact Or.inl ⟨rfl, x, hp, hs⟩

/-- Exactly this place inside the document has the identifier. -/
def OnlyPlace (u : UrlSys) (base : String) (v : JVal) (ts : List String) (uri : String) : Prop :=
  Identifies u base v ts uri ∧ ts ≠ [] ∧ ∀ us, us ≠ [] → Identifies u base v us uri → us = ts

theorem collect_lookup {u : UrlSys} {base d : String} {n : SchemaNode} (hs : SlashFree (encodeNode n))
    (hw : JVal.WF (encodeNode n)) {ts : List String} {uri : String} (h : OnlyPlace u base (encodeNode n) ts uri) :
    lookupKV (collectSubSchemaIds u base d n) uri = some (d, pointerText ts) := by
  rw [collect_ids u base d n hs hw]
  obtain ⟨h1, h2, h3⟩ := h
  obtain ⟨x, hx⟩ := Option.isSome_iff_exists.1
    (lookup_addId_some (d := d) (f := []) (Or.inr ⟨ts, ids_iff.2 h1, h2⟩))
  rw [hx]
  rcases lookup_addId hx with hn | ⟨us, hm, hne, rfl⟩
  · cases hn
  · rw [h3 us hne (ids_iff.1 hm), pointer_trail]

/-- **C80.** When a parse starts, the identifiers of the root document are known: an identifier that one place carries,
resolved against the nearest enclosing identifier, stands for that place; and every known identifier belongs to some
place. -/
theorem C80_identifiers_known (c : PEnv) (root : SchemaNode) (s : PSt) (h : initState c root = .ok s)
    (hs : SlashFree (encodeNode root)) (hw : JVal.WF (encodeNode root)) (base : String)
    (hb : DocumentBase c.url (rootIds c).2 root base) :
    (∀ ts uri, OnlyPlace c.url base (encodeNode root) ts uri →
      lookupKV s.aliases uri = some ((rootIds c).2, pointerText ts)) ∧
    (∀ uri doc path, lookupKV s.aliases uri = some (doc, path) →
      doc = (rootIds c).2 ∧ ∃ ts, path = pointerText ts ∧ Identifies c.url base (encodeNode root) ts uri) := by
  have ha : s.aliases = addAliases [] (collectSubSchemaIds c.url base (rootIds c).2 root) := by
    rw [documentBase_iff] at hb
    subst hb
    unfold initState at h
    cases hm : makeFileFetcher c with
    | error e => rw [hm] at h; cases h
    | ok ff =>
      rw [hm] at h
      dsimp only at h
      injection h with h
      subst h
      rfl
  have hl : ∀ uri, lookupKV s.aliases uri = lookupKV (collectSubSchemaIds c.url base (rootIds c).2 root) uri := by
    intro uri; rw [ha, lookup_addAliases]; rfl
  refine ⟨fun ts uri ho => by rw [hl, collect_lookup hs hw ho], fun uri doc path hx => ?_⟩
  rw [hl, collect_ids c.url base _ root hs hw] at hx
  rcases lookup_addId hx with hn | ⟨us, hm, hne, e⟩
  · cases hn
  · injection e with e1 e2
    exact ⟨e1, us, by rw [e2, pointer_trail], ids_iff.1 hm⟩

/-- **C80.** The same for a document that is fetched later: its identifiers stand for its places, unless they are known
already. -/
theorem C80_fetched_identifiers_known (c : PEnv) (id : String) (n : SchemaNode) (s s' : PSt)
    (h : addDocument c id n s = .ok () s') (hnew : lookupKV s.docs id = none) (hs : SlashFree (encodeNode n))
    (hw : JVal.WF (encodeNode n)) (base : String) (hb : DocumentBase c.url id n base) (ts : List String) (uri : String)
    (ho : OnlyPlace c.url base (encodeNode n) ts uri) :
    lookupKV s'.aliases uri = some ((lookupKV s.aliases uri).getD (id, pointerText ts)) := by
  rw [documentBase_iff] at hb
  subst hb
  unfold addDocument at h
  simp only [modS_apply, Res.ok.injEq] at h
  obtain ⟨_, h⟩ := h
  rw [if_neg (by simp [hnew])] at h
  subst h
  show lookupKV (addAliases s.aliases _) uri = _
  rw [lookup_addAliases, collect_lookup hs hw ho]
  cases lookupKV s.aliases uri <;> rfl

/-! ## References to identifiers -/

/-- The document that is being read. -/
def readingFrom (s : PSt) : String := if s.resolvingId ≠ "" then s.resolvingId else s.parsingId

theorem compose_pointer (ts fs : List String) : composePaths (pointerText ts) (pointerText fs) = pointerText (ts ++ fs) := by
  have hs : "#".toList = ['#'] := by decide +kernel
  unfold composePaths
  cases fs with
  | nil => rw [if_pos (Or.inl (show pointerText [] = "#" from rfl)), List.append_nil]
  | cons f fs =>
    rw [if_neg]
    · apply String.toList_inj.1
      rw [String.toList_append, String.toList_ofList, pointer_trail, pointer_trail, pointer_trail, String.toList_append,
        String.toList_append, String.toList_append, trail_toList, trail_toList, trail_toList, hs]
      simp
    · rw [pointer_trail]
      rintro (h | h)
      · have := congrArg String.toList h
        rw [String.toList_append, trail_toList, hs] at this
        simp at this
      · have := congrArg String.toList h
        rw [String.toList_append, hs] at this
        simp at this

theorem splitHash_at {a b : List Char} (ha : '#' ∉ a) : splitHash (a ++ '#' :: b) = (a, '#' :: b) := by
  induction a with
  | nil => simp [splitHash]
  | cons c t ih =>
    rw [List.cons_append]
    unfold splitHash
    rw [if_neg (fun e => ha (by simp [e])), ih fun hh => ha (by simp [hh])]

theorem pointer_no_newline {ts : List String} (h : PlainTokens ts) : '\n' ∉ (pointerText ts).toList := by
  rw [pointer_trail, String.toList_append, trail_toList]
  intro hm
  rcases List.mem_append.1 hm with hm | hm
  · revert hm; decide +kernel
  · simp only [List.mem_flatten, List.mem_map] at hm
    obtain ⟨l, ⟨t, ht, rfl⟩, hm⟩ := hm
    rcases List.mem_cons.1 hm with e | hm
    · revert e; decide
    · exact (h t ht).2.2 hm

theorem queueDocument_run (doc : String) (s : PSt) : ∃ q, queueDocument doc s = .ok () { s with queue := q } := by
  unfold queueDocument
  simp only [modS_apply]
  split
  · exact ⟨_, rfl⟩
  · exact ⟨s.queue, rfl⟩

theorem orRoot_pointer (fs : List String) : orRoot (pointerText fs) = pointerText fs := by
  unfold orRoot
  rw [if_neg]
  rw [pointer_trail]
  intro h
  have := congrArg String.toList h
  rw [String.toList_append, show "#".toList = ['#'] from by decide +kernel] at this
  simp at this

/-- The text names `name` and the place with the tokens `fs` inside it. -/
def RefText (ref name : String) (fs : List String) : Prop :=
  '#' ∉ name.toList ∧ name ≠ "" ∧ PlainTokens fs ∧ ((ref = name ∧ fs = []) ∨ ref = name ++ pointerText fs)

theorem match_refText {ref name : String} {fs : List String} (h : RefText ref name fs) (s : PSt) :
    ∃ p, matchDocumentRegex ref s = .ok (name, p) s ∧ orRoot p = pointerText fs := by
  obtain ⟨hh, _, hf, ⟨rfl, rfl⟩ | rfl⟩ := h
  · refine ⟨"", ?_, rfl⟩
    unfold matchDocumentRegex
    rw [splitHash_noHash _ hh]
    dsimp only
    rw [if_neg (by simp), String.ofList_toList]
    rfl
  · refine ⟨pointerText fs, ?_, orRoot_pointer fs⟩
    have hsp : splitHash (name ++ pointerText fs).toList = (name.toList, (pointerText fs).toList) := by
      rw [String.toList_append]
      have : (pointerText fs).toList = '#' :: (trail fs).toList := by
        rw [pointer_trail, String.toList_append, show "#".toList = ['#'] from by decide +kernel]; rfl
      rw [this]
      exact splitHash_at hh
    unfold matchDocumentRegex
    rw [hsp]
    dsimp only
    rw [if_neg (pointer_no_newline hf), String.ofList_toList, String.ofList_toList]
    rfl

theorem noAllOf_iff {l : List Char} : hasAllOfStep l = false ↔ ¬ "/allOf/".toList <:+: l := by
  induction l with
  | nil =>
    constructor
    · intro _ h
      have := h.length_le
      revert this
      decide +kernel
    · intro _; rfl
  | cons c t ih =>
    unfold hasAllOfStep
    rw [Bool.or_eq_false_iff, ih, List.infix_cons_iff, not_or]
    constructor
    · rintro ⟨h1, h2⟩
      exact ⟨fun h => (by rw [List.isPrefixOf_iff_prefix.2 h] at h1; exact Bool.noConfusion h1), h2⟩
    · rintro ⟨h1, h2⟩
      refine ⟨?_, h2⟩
      cases e : "/allOf/".toList.isPrefixOf (c :: t) with
      | false => rfl
      | true => exact (h1 (List.isPrefixOf_iff_prefix.1 e)).elim

/-- A reference to a known identifier. -/
theorem reference_known {c : PEnv} {s : PSt} {ref name : String} {fs : List String} {uri doc : String} {ts : List String}
    (hk : lookupKV s.aliases uri = some (doc, pointerText ts)) (ht : RefText ref name fs)
    (hr : AgainstBase c.url (readingFrom s) name uri) (hall : ¬ "/allOf/".toList <:+: ref.toList) :
    ∃ q, parseReference c ref s = .ok (.ref doc (pointerText (ts ++ fs)), none) { s with queue := q } := by
  have hne : uri ≠ "" := by obtain ⟨_, _, _, _, _, h⟩ := hr; exact h
  have hres := (resolve_iff hne).2 hr
  obtain ⟨q, hq⟩ := queueDocument_run doc s
  obtain ⟨p, hm, hp⟩ := match_refText ht s
  have hd : resolveDocumentRef c name (pointerText fs) s = .ok (.ok (doc, pointerText (ts ++ fs))) s := by
    unfold resolveDocumentRef
    dsimp only
    show (match (if resolveRelativeURI c.url (readingFrom s) name ≠ "" then
      lookupKV s.aliases (resolveRelativeURI c.url (readingFrom s) name) else none) with
      | some a => _
      | none => _) = _
    rw [hres, if_pos hne, hk]
    dsimp only
    rw [compose_pointer]
  refine ⟨q, ?_⟩
  have hdef : handleDeferred c ref s = .ok (.ok (doc, pointerText (ts ++ fs))) { s with queue := q } := by
    unfold handleDeferred
    refine bind_ok.2 ⟨_, _, hm, ?_⟩
    rw [if_neg ht.2.1, hp]
    refine bind_ok.2 ⟨_, _, hd, ?_⟩
    exact bind_ok.2 ⟨_, _, hq, rfl⟩
  unfold parseReference
  rw [if_neg (by rw [noAllOf_iff.2 hall]; simp)]
  exact bind_ok.2 ⟨_, _, hdef, rfl⟩

/-- **C80.** A reference to an embedded schema by its identifier, with a pointer after it or not, leads to the place of the
root document that carries it: into every document that is parsed later (`hl`: identifiers are only added), whatever the
document is in which the reference is written, as long as its name resolves to the identifier. -/
theorem C80_reference_to_identifier (c : PEnv) (root : SchemaNode) (s₀ : PSt) (h : initState c root = .ok s₀)
    (hs : SlashFree (encodeNode root)) (hw : JVal.WF (encodeNode root)) (base : String)
    (hb : DocumentBase c.url (rootIds c).2 root base) (ts : List String) (uri : String)
    (ho : OnlyPlace c.url base (encodeNode root) ts uri) (s : PSt) (hl : ∃ l, s.aliases = s₀.aliases ++ l)
    (ref name : String) (fs : List String) (ht : RefText ref name fs) (hr : AgainstBase c.url (readingFrom s) name uri)
    (hall : ¬ "/allOf/".toList <:+: ref.toList) :
    ∃ q, parseReference c ref s = .ok (.ref (rootIds c).2 (pointerText (ts ++ fs)), none) { s with queue := q } := by
  refine reference_known ?_ ht hr hall
  obtain ⟨l, e⟩ := hl
  rw [e, lookup_append, (C80_identifiers_known c root s₀ h hs hw base hb).1 ts uri ho]
  rfl

/-- **C80**, partial: where the base of the document was given (`RelativeTo`), the reference is the same as the local
reference to that place.  Without it the claim is refuted below. -/
theorem C80_same_as_pointer_partial (c : PEnv) (root : SchemaNode) (s₀ : PSt) (h : initState c root = .ok s₀)
    (hbase : c.relativeTo ≠ "") (hs : SlashFree (encodeNode root)) (hw : JVal.WF (encodeNode root)) (base : String)
    (hb : DocumentBase c.url c.relativeTo root base) (ts : List String) (uri : String)
    (ho : OnlyPlace c.url base (encodeNode root) ts uri) (s : PSt) (hl : ∃ l, s.aliases = s₀.aliases ++ l)
    (hread : readingFrom s = c.relativeTo)
    (ref name : String) (fs : List String) (ht : RefText ref name fs) (hr : AgainstBase c.url (readingFrom s) name uri)
    (hall : ¬ "/allOf/".toList <:+: ref.toList) (hts : PlainTokens ts)
    (hall' : ¬ "/allOf/".toList <:+: (pointerText (ts ++ fs)).toList) :
    ∃ g s₁ s₂, parseReference c ref s = .ok (g, none) s₁ ∧ parseReference c (pointerText (ts ++ fs)) s = .ok (g, none) s₂ := by
  have hrid : rootIds c = (c.relativeTo, c.relativeTo) := by
    unfold rootIds
    rw [if_neg hbase]
  obtain ⟨q, h1⟩ := C80_reference_to_identifier c root s₀ h hs hw base (by rw [hrid]; exact hb) ts uri ho s hl ref name fs ht
    hr hall
  refine ⟨_, _, s, h1, ?_⟩
  have hp : PlainTokens (ts ++ fs) := by
    intro t hm
    rcases List.mem_append.1 hm with hm | hm
    · exact hts t hm
    · exact ht.2.2.1 t hm
  have hm : matchDocumentRegex (pointerText (ts ++ fs)) s = .ok ("", pointerText (ts ++ fs)) s := by
    have hsp : splitHash (pointerText (ts ++ fs)).toList = ([], (pointerText (ts ++ fs)).toList) := by
      have : (pointerText (ts ++ fs)).toList = [] ++ '#' :: (trail (ts ++ fs)).toList := by
        rw [pointer_trail, String.toList_append, show "#".toList = ['#'] from by decide +kernel]; rfl
      rw [this]
      exact splitHash_at (by simp)
    unfold matchDocumentRegex
    rw [hsp]
    dsimp only
    rw [if_neg (pointer_no_newline hp), String.ofList_toList]
    rfl
  unfold parseReference
  rw [if_neg (by rw [noAllOf_iff.2 hall']; simp)]
  refine bind_ok.2 ⟨.ok (readingFrom s, pointerText (ts ++ fs)), s, ?_, by rw [hread, hrid]; rfl⟩
  unfold handleDeferred
  refine bind_ok.2 ⟨_, _, hm, ?_⟩
  rw [if_pos rfl, orRoot_pointer]
  exact bind_ok.2 ⟨_, _, rfl, rfl⟩

/-! ## Examples -/

/-- A schema whose definition `shapes` has an identifier on another host; the colour inside it has a relative one. -/
def shapesSchema (ref : String) : JVal :=
  .obj [("type", .str "object"), ("properties", .obj [("a", .obj [("$ref", .str ref)])]), ("required", .arr [.str "a"]),
    ("$defs", .obj [("shapes", .obj [("$id", .str "https://e.com/shapes"), ("type", .str "object"),
      ("properties", .obj [("color", .obj [("$id", .str "color"), ("type", .str "boolean")])])])])]

/-- The same after reading. -/
def shapesNode (ref : String) : SchemaNode := (decodeNode (shapesSchema ref)).getD {}

/-- Its identifiers, with the nearest enclosing one as base. -/
theorem shapes_ids : idsOf demoUrl "https://f.com/root.json" (encodeNode (shapesNode "https://e.com/color")) [] =
    [("https://e.com/shapes", ["$defs", "shapes"]), ("https://e.com/color", ["$defs", "shapes", "properties", "color"])] := by
  decide +kernel

/-- The colour is the only place with its identifier. -/
example : OnlyPlace demoUrl "https://f.com/root.json" (encodeNode (shapesNode "https://e.com/color"))
    ["$defs", "shapes", "properties", "color"] "https://e.com/color" := by
  refine ⟨ids_iff.1 (by rw [shapes_ids]; simp), by simp, fun us hne h => ?_⟩
  have := ids_iff.2 h
  rw [shapes_ids] at this
  simpa using this

/-- Names without slashes and without repetitions, decided to a depth. -/
def tidyB : Nat → JVal → Bool
  | n + 1, .obj m => decide ((m.map Prod.fst).Nodup) && m.all fun p => !(p.1.toList.contains '/') && tidyB n p.2
  | n + 1, .arr l => l.all fun x => tidyB n x
  | 0, _ => false
  | _ + 1, .null => true
  | _ + 1, .bool _ => true
  | _ + 1, .num _ => true
  | _ + 1, .str _ => true

theorem tidy_sound : ∀ (n : Nat) (v : JVal), tidyB n v = true → SlashFree v ∧ JVal.WF v
  | 0, _, h => by unfold tidyB at h; cases h
  | n + 1, v, h => by
    cases v with
    | obj m =>
      unfold tidyB at h
      rw [Bool.and_eq_true, decide_eq_true_eq, List.all_eq_true] at h
      have hp : ∀ p ∈ m, '/' ∉ p.1.toList ∧ SlashFree p.2 ∧ JVal.WF p.2 := by
        intro p hp
        have := h.2 p hp
        rw [Bool.and_eq_true] at this
        exact ⟨by simpa using this.1, tidy_sound n p.2 this.2⟩
      exact ⟨.obj m (fun p hm => (hp p hm).1) (fun p hm => (hp p hm).2.1), .obj m h.1 fun p hm => (hp p hm).2.2⟩
    | arr l =>
      unfold tidyB at h
      rw [List.all_eq_true] at h
      exact ⟨.arr l fun x hx => (tidy_sound n x (h x hx)).1, .arr l fun x hx => (tidy_sound n x (h x hx)).2⟩
    | null => exact ⟨by constructor, by constructor⟩
    | bool b => exact ⟨by constructor, by constructor⟩
    | num q => exact ⟨by constructor, by constructor⟩
    | str t => exact ⟨by constructor, by constructor⟩

/-- The schema meets the conditions on names. -/
example : SlashFree (encodeNode (shapesNode "https://e.com/color")) ∧ JVal.WF (encodeNode (shapesNode "https://e.com/color")) :=
  tidy_sound 10 _ (by decide +kernel)

/-- It has no identifier of its own, and the reference resolves to that of the colour. -/
example : DocumentBase demoUrl "https://f.com/root.json" (shapesNode "https://e.com/color") "https://f.com/root.json" ∧
    AgainstBase demoUrl "https://f.com/root.json" "https://e.com/color" "https://e.com/color" ∧
    RefText "https://e.com/color" "https://e.com/color" [] :=
  ⟨documentBase_iff.2 (by decide +kernel), (resolve_iff (by decide)).1 (by decide +kernel), by decide +kernel, by decide,
    by intro t ht; simp at ht, Or.inl ⟨rfl, rfl⟩⟩

/-- A reference by identifier is followed. -/
example : libYields demoEnv demoWorld { relativeTo := "https://f.com/root.json" } (shapesSchema "https://e.com/color")
    (.obj [("a", .bool true)]) = true := by decide +kernel

/-- So is one with a pointer after the identifier. -/
example : libYields demoEnv demoWorld { relativeTo := "https://f.com/root.json" }
    (shapesSchema "https://e.com/shapes#/properties/color") (.obj [("a", .bool true)]) = true := by decide +kernel

/-! ## Where it fails -/

/-- A schema with an absolute identifier that refers to its definition by a relative one. -/
def paintSchema (own : List (String × JVal)) : JVal :=
  .obj (own ++ [("type", .str "object"), ("properties", .obj [("a", .obj [("$ref", .str "color")])]),
    ("required", .arr [.str "a"]), ("$defs", .obj [("c", .obj [("$id", .str "color"), ("type", .str "boolean")])])])

/-- The value generated for `a`, when no error was recorded while parsing. -/
def valueOfA (c : PEnv) (o : LibOpts) (schema : JVal) : Option JVal :=
  match (libParse c 20 schema o).1 with
  | .done (.ok (g, none) s) =>
    if s.errors.length = 0 then
      match rootGenerate demoWorld {} (refEnv s) 20 g with
      | .ok (.obj m) _ => lookupKV m "a"
      | _ => none
    else none
  | _ => none

/-- The text is a boolean. -/
def JVal.isBool : JVal → Bool
  | .bool _ => true
  | _ => false

/-- It works without an identifier of the schema itself. -/
example : (valueOfA demoEnv { relativeTo := "https://e.com/root.json" } (paintSchema [])).map JVal.isBool = some true := by
  decide +kernel

/-- C80 is violated: a relative reference is resolved against the name the document is read by, not against the identifier
of the schema it is written in.  Here `color` then leads nowhere, and without a fetcher the reference silently stands for
the whole schema: `a` is no boolean, and no error is recorded. -/
theorem C80_relative_reference_violation : ∃ c o schema x, EnvLaws c ∧ o.relativeTo ≠ "" ∧
    valueOfA c o schema = some x ∧ x.isBool = false ∧ schema = paintSchema [("$id", .str "https://f.com/root.json")] := by
  have h : (valueOfA demoEnv { relativeTo := "https://e.com/root.json" }
      (paintSchema [("$id", .str "https://f.com/root.json")])).map JVal.isBool = some false := by decide +kernel
  cases e : valueOfA demoEnv { relativeTo := "https://e.com/root.json" }
      (paintSchema [("$id", .str "https://f.com/root.json")]) with
  | none => rw [e] at h; cases h
  | some x =>
    rw [e] at h
    injection h with h
    exact ⟨demoEnv, { relativeTo := "https://e.com/root.json" }, _, x, demoEnv_laws, by decide, e, h, rfl⟩

/-- Two properties; the name of the second starts with that of the first. -/
def slashNode : SchemaNode :=
  { properties := some [("a", { id := some "https://a.org/x" }), ("a/b", { id := some "c" })] }

theorem slash_ids : idsOf demoUrl "https://e.com/root.json" (encodeNode slashNode) [] =
    [("https://a.org/x", ["properties", "a"]), ("https://e.com/c", ["properties", "a/b"])] := by decide +kernel

/-- Names without repetitions, decided to a depth. -/
def distinctB : Nat → JVal → Bool
  | n + 1, .obj m => decide ((m.map Prod.fst).Nodup) && m.all fun p => distinctB n p.2
  | n + 1, .arr l => l.all fun x => distinctB n x
  | 0, _ => false
  | _ + 1, .null => true
  | _ + 1, .bool _ => true
  | _ + 1, .num _ => true
  | _ + 1, .str _ => true

theorem distinct_sound : ∀ (n : Nat) (v : JVal), distinctB n v = true → JVal.WF v
  | 0, _, h => by unfold distinctB at h; cases h
  | n + 1, v, h => by
    cases v with
    | obj m =>
      unfold distinctB at h
      rw [Bool.and_eq_true, decide_eq_true_eq, List.all_eq_true] at h
      exact .obj m h.1 fun p hm => distinct_sound n p.2 (h.2 p hm)
    | arr l =>
      unfold distinctB at h
      rw [List.all_eq_true] at h
      exact .arr l fun x hx => distinct_sound n x (h x hx)
    | null => constructor
    | bool b => constructor
    | num q => constructor
    | str t => constructor

/-- C80 is violated: a name with a slash is taken for two steps, so that an identifier is resolved against that of a
neighbour, and references to it lead nowhere. -/
theorem C80_slash_violation : ∃ base n ts uri, OnlyPlace demoUrl base (encodeNode n) ts uri ∧
    JVal.WF (encodeNode n) ∧ lookupKV (collectSubSchemaIds demoUrl base "doc" n) uri = none := by
  refine ⟨"https://e.com/root.json", slashNode, ["properties", "a/b"], "https://e.com/c",
    ⟨ids_iff.1 (by rw [slash_ids]; simp), by simp, fun us hne h => ?_⟩, distinct_sound 10 _ (by decide +kernel),
    by decide +kernel⟩
  have := ids_iff.2 h
  rw [slash_ids] at this
  simpa using this

/-- C80 is violated: an `$id` in a constant value is taken for the identifier of a schema. -/
theorem C80_constant_violation : ∃ n : SchemaNode, n.const = some (.obj [("$id", .str "x")]) ∧ n.id = none ∧
    lookupKV (collectSubSchemaIds demoUrl "https://e.com/root.json" "doc" n) "https://e.com/x" = some ("doc", "#/const") :=
  ⟨{ const := some (.obj [("$id", .str "x")]) }, rfl, rfl, by decide +kernel⟩

/-! ## Without a base -/

/-- `file:/x` is `file:///x`. -/
def oneSlash (t : String) : String :=
  if "file:/".toList.isPrefixOf t.toList && !("file://".toList.isPrefixOf t.toList) then
    String.ofList ("file://".toList ++ t.toList.drop 5)
  else t

/-- The URLs of the examples, and `file:/x`, which `filepath.Join` makes of a `file://` URL. -/
def slashUrl : UrlSys := ⟨fun t => demoParse (oneSlash t), demoResolve, demoStr⟩

/-- C80 is violated: without `RelativeTo` the place is looked up in a document of another name than the one its generator is
stored under, so that every reference by identifier is unresolvable.  No error is recorded while parsing; the generated
value is a text instead of a boolean. -/
theorem C80_default_base_violation : ∃ c o schema x, o.relativeTo = "" ∧ valueOfA c o schema = some x ∧ x.isBool = false ∧
    schema = paintSchema [] ∧ c.url.parse (rootIds (libEnv c o)).2 = c.url.parse ("file:///w/" ++ rootDocumentId) := by
  have h : (valueOfA { demoEnv with url := slashUrl } {} (paintSchema [])).map JVal.isBool = some false := by decide +kernel
  cases e : valueOfA { demoEnv with url := slashUrl } {} (paintSchema []) with
  | none => rw [e] at h; cases h
  | some x =>
    rw [e] at h
    injection h with h
    exact ⟨{ demoEnv with url := slashUrl }, {}, _, x, rfl, e, h, rfl, by decide +kernel⟩

/-- The local reference to the same place works. -/
example : (valueOfA { demoEnv with url := slashUrl } {}
    (.obj [("type", .str "object"), ("properties", .obj [("a", .obj [("$ref", .str "#/$defs/c")])]),
    ("required", .arr [.str "a"]), ("$defs", .obj [("c", .obj [("$id", .str "color"), ("type", .str "boolean")])])])).map
      JVal.isBool = some true := by decide +kernel

end Chaff
