import Verif.Model.RefPath
import Verif.Spec.Pointer
import Verif.Props.RefText
import Verif.Props.Not
import Verif.Lemmas.DemoEnv
/-!
# C45: JSON pointers resolve to the schema they name
-/

namespace Chaff

/-- The tokens joined with slashes. -/
def joinSlash : List String → List Char
  | [] => []
  | [t] => t.toList
  | t :: u :: ts => t.toList ++ '/' :: joinSlash (u :: ts)

theorem pathToken_plain : ∀ {l : List Char}, '/' ∉ l → pathToken l = (l, [])
  | [], _ => rfl
  | c :: t, h => by
    have hc : c ≠ '/' := fun e => h (e ▸ List.mem_cons_self)
    have ht : '/' ∉ t := fun e => h (List.mem_cons_of_mem _ e)
    rw [pathToken, if_neg hc, pathToken_plain ht]

theorem pathToken_slash : ∀ {l r : List Char}, '/' ∉ l → pathToken (l ++ '/' :: r) = (l, r)
  | [], _, _ => rfl
  | c :: t, r, h => by
    have hc : c ≠ '/' := fun e => h (e ▸ List.mem_cons_self)
    have ht : '/' ∉ t := fun e => h (List.mem_cons_of_mem _ e)
    rw [List.cons_append, pathToken, if_neg hc, pathToken_slash ht]

theorem pathToken_join {t : String} {ts : List String} (h : '/' ∉ t.toList) :
    pathToken (joinSlash (t :: ts)) = (t.toList, joinSlash ts) := by
  cases ts with
  | nil => exact pathToken_plain h
  | cons u us => exact pathToken_slash h

theorem joinSlash_ne {t : String} {ts : List String} (h : t ≠ "") : joinSlash (t :: ts) ≠ [] := by
  have ht : t.toList ≠ [] := fun e => h (by rw [← String.ofList_toList (s := t), e])
  cases ts with
  | nil => exact ht
  | cons u us => intro e; exact ht (List.append_eq_nil_iff.1 e).1

theorem joinSlash_length (t : String) (u : String) (ts : List String) :
    (joinSlash (u :: ts)).length < (joinSlash (t :: u :: ts)).length := by
  rw [joinSlash, List.length_append, List.length_cons]
  omega

theorem joinSlash_tail_le (t : String) (ts : List String) : (joinSlash ts).length ≤ (joinSlash (t :: ts)).length := by
  cases ts with
  | nil => exact Nat.zero_le _
  | cons u us => exact (joinSlash_length t u us).le

theorem PlainTokens.tail {t : String} {ts : List String} (h : PlainTokens (t :: ts)) : PlainTokens ts :=
  fun x hx => h x (List.mem_cons_of_mem _ hx)

/-- A keyword step whose first token is `kw` and that has something after it. -/
theorem subPath_kw {k : Nat} {n : SchemaNode} {kw next : String} {rest : List String} (h : PlainTokens (kw :: next :: rest)) :
    subPath (k + 1) (some n) (joinSlash (kw :: next :: rest)) =
      (let path := joinSlash (next :: rest)
      if kw = "properties" then resolveProperty (subPath k) n.properties path
      else if kw = "patternProperties" then resolveProperty (subPath k) n.patternProperties path
      else if kw = "additionalProperties" then resolveFalseOrSchema (subPath k) n.additionalProperties path
      else if kw = "items" then resolveItems (subPath k) n.items path
      else if kw = "prefixItems" then resolveSlice (subPath k) n.prefixItems path
      else if kw = "contains" then subPath k n.contains path
      else if kw = "additionalItems" then resolveFalseOrSchema (subPath k) n.additionalItems path
      else if kw = "unevaluatedItems" then resolveFalseOrSchema (subPath k) n.unevaluatedItems path
      else if kw = "allOf" then resolveSlice (subPath k) n.allOf path
      else if kw = "anyOf" then resolveSlice (subPath k) n.anyOf path
      else if kw = "oneOf" then resolveSlice (subPath k) n.oneOf path
      else if kw = "not" then subPath k n.not path
      else if kw = "if" then subPath k n.ifN path
      else if kw = "then" then subPath k n.thenN path
      else if kw = "else" then subPath k n.elseN path
      else if kw = "definitions" then resolveProperty (subPath k) n.definitions path
      else if kw = "$defs" then resolveProperty (subPath k) n.defs path
      else if kw = "#" then subPath k (some n) path
      else pure (.error "Invalid reference path")) := by
  rw [subPath, pathToken_join (h kw List.mem_cons_self).2.1]
  dsimp only
  rw [if_neg (joinSlash_ne (h next (by simp)).1), String.ofList_toList]

theorem resolveProperty_found {sub : Option SchemaNode → List Char → P (Except Err SchemaNode)}
    {m : List (String × SchemaNode)} {name : String} {rest : List String} {t : SchemaNode} (h : '/' ∉ name.toList)
    (hm : lookupKV m name = some t) :
    resolveProperty sub (some m) (joinSlash (name :: rest)) = sub (some t) (joinSlash rest) := by
  unfold resolveProperty
  rw [pathToken_join h]
  dsimp only
  rw [String.ofList_toList, hm]

theorem subPath_named {k : Nat} {n m : SchemaNode} {kw name : String} {rest : List String}
    (h : PlainTokens (kw :: name :: rest)) (hn : HasNamed n name m kw) :
    subPath (k + 1) (some n) (joinSlash (kw :: name :: rest)) = subPath k (some m) (joinSlash rest) := by
  rw [subPath_kw h]
  have hs : '/' ∉ name.toList := (h name (by simp)).2.1
  cases hn with
  | properties l h1 h2 => simp only [String.reduceEq, if_true, if_false]; rw [h1, resolveProperty_found hs h2]
  | patternProperties l h1 h2 => simp only [String.reduceEq, if_true, if_false]; rw [h1, resolveProperty_found hs h2]
  | definitions l h1 h2 => simp only [String.reduceEq, if_true, if_false]; rw [h1, resolveProperty_found hs h2]
  | defs l h1 h2 => simp only [String.reduceEq, if_true, if_false]; rw [h1, resolveProperty_found hs h2]

theorem subPath_sub {k : Nat} {n m : SchemaNode} {kw next : String} {rest : List String}
    (h : PlainTokens (kw :: next :: rest)) (hn : HasSub n m kw) :
    subPath (k + 1) (some n) (joinSlash (kw :: next :: rest)) = subPath k (some m) (joinSlash (next :: rest)) := by
  rw [subPath_kw h]
  cases hn with
  | not h1 => simp only [String.reduceEq, if_true, if_false]; rw [h1]
  | ifN h1 => simp only [String.reduceEq, if_true, if_false]; rw [h1]
  | thenN h1 => simp only [String.reduceEq, if_true, if_false]; rw [h1]
  | elseN h1 => simp only [String.reduceEq, if_true, if_false]; rw [h1]
  | contains h1 => simp only [String.reduceEq, if_true, if_false]; rw [h1]
  | additionalProperties d h1 h2 h3 =>
    simp only [String.reduceEq, if_true, if_false, resolveFalseOrSchema, h1, h2, h3, Bool.false_eq_true]
  | additionalItems d h1 h2 h3 =>
    simp only [String.reduceEq, if_true, if_false, resolveFalseOrSchema, h1, h2, h3, Bool.false_eq_true]
  | unevaluatedItems d h1 h2 h3 =>
    simp only [String.reduceEq, if_true, if_false, resolveFalseOrSchema, h1, h2, h3, Bool.false_eq_true]

theorem subPath_items {k : Nat} {n m : SchemaNode} {d : ItemsData SchemaNode} {next : String} {rest : List String}
    (h : PlainTokens ("items" :: next :: rest)) (h1 : n.items = some d) (h2 : d.node = some m)
    (h3 : ∃ c ∈ next.toList, c < '0' ∨ '9' < c) :
    subPath (k + 1) (some n) (joinSlash ("items" :: next :: rest)) = subPath k (some m) (joinSlash (next :: rest)) := by
  rw [subPath_kw h]
  simp only [String.reduceEq, if_true, if_false]
  unfold resolveItems
  rw [h1]
  dsimp only
  rw [pathToken_join (h next (by simp)).2.1, if_pos, h2]
  obtain ⟨c, hc, hd⟩ := h3
  unfold atoiDigits
  rw [if_neg]
  · rfl
  · rintro ⟨_, ha⟩
    have := List.all_eq_true.1 ha c hc
    unfold isDigit at this
    rw [Bool.and_eq_true, decide_eq_true_eq, decide_eq_true_eq] at this
    rcases hd with hd | hd
    · exact absurd hd (Char.not_lt.2 this.1)
    · exact absurd hd (Char.not_lt.2 this.2)

theorem subPath_points {n t : SchemaNode} {ts : List String} (h : PointsTo n ts t) (hp : PlainTokens ts) (s : PSt) :
    ∀ k, (joinSlash ts).length < k → subPath k (some n) (joinSlash ts) s = .ok (.ok t) s := by
  induction h with
  | here n =>
    intro k hk
    obtain ⟨k, rfl⟩ : ∃ j, k = j + 1 := ⟨k - 1, by omega⟩
    rfl
  | named n m t kw name rest hn _ ih =>
    intro k hk
    obtain ⟨k, rfl⟩ : ∃ j, k = j + 1 := ⟨k - 1, by omega⟩
    rw [subPath_named hp hn]
    have h1 := joinSlash_length kw name rest
    have h2 := joinSlash_tail_le name rest
    exact ih hp.tail.tail k (by omega)
  | sub n m t kw next rest hn _ ih =>
    intro k hk
    obtain ⟨k, rfl⟩ : ∃ j, k = j + 1 := ⟨k - 1, by omega⟩
    rw [subPath_sub hp hn]
    have h1 := joinSlash_length kw next rest
    exact ih hp.tail k (by omega)
  | items n m t d next rest h1 h2 h3 _ ih =>
    intro k hk
    obtain ⟨k, rfl⟩ : ∃ j, k = j + 1 := ⟨k - 1, by omega⟩
    rw [subPath_items hp h1 h2 h3]
    have h1 := joinSlash_length "items" next rest
    exact ih hp.tail k (by omega)

theorem resolveProperty_missing {sub : Option SchemaNode → List Char → P (Except Err SchemaNode)}
    {nodes : Option (List (String × SchemaNode))} {name : String} {rest : List String} (h : '/' ∉ name.toList)
    (hm : ∀ m t, nodes = some m → ¬ lookupKV m name = some t) (s : PSt) :
    ∃ e, resolveProperty sub nodes (joinSlash (name :: rest)) s = .ok (.error e) s := by
  unfold resolveProperty
  cases nodes with
  | none => exact ⟨_, rfl⟩
  | some m =>
    rw [pathToken_join h]
    dsimp only
    rw [String.ofList_toList]
    cases hl : lookupKV m name with
    | none => exact ⟨_, rfl⟩
    | some t => exact absurd hl (hm m t rfl)

theorem subPath_dangles {n : SchemaNode} {ts : List String} (h : Dangles n ts) (hp : PlainTokens ts) (s : PSt) :
    ∀ k, (joinSlash ts).length < k → ∃ e, subPath k (some n) (joinSlash ts) s = .ok (.error e) s := by
  induction h with
  | missing n kw name rest hk hn =>
    intro k hlt
    obtain ⟨k, rfl⟩ : ∃ j, k = j + 1 := ⟨k - 1, by omega⟩
    rw [subPath_kw hp]
    have hs : '/' ∉ name.toList := (hp name (by simp)).2.1
    simp only [namedKeywords, List.mem_cons, List.not_mem_nil, or_false] at hk
    rcases hk with rfl | rfl | rfl | rfl
    · simp only [String.reduceEq, if_true, if_false]
      exact resolveProperty_missing hs (fun m t h1 h2 => hn t (.properties m h1 h2)) s
    · simp only [String.reduceEq, if_true, if_false]
      exact resolveProperty_missing hs (fun m t h1 h2 => hn t (.patternProperties m h1 h2)) s
    · simp only [String.reduceEq, if_true, if_false]
      exact resolveProperty_missing hs (fun m t h1 h2 => hn t (.definitions m h1 h2)) s
    · simp only [String.reduceEq, if_true, if_false]
      exact resolveProperty_missing hs (fun m t h1 h2 => hn t (.defs m h1 h2)) s
  | named n m kw name rest hn _ ih =>
    intro k hk
    obtain ⟨k, rfl⟩ : ∃ j, k = j + 1 := ⟨k - 1, by omega⟩
    rw [subPath_named hp hn]
    have h1 := joinSlash_length kw name rest
    have h2 := joinSlash_tail_le name rest
    exact ih hp.tail.tail k (by omega)
  | sub n m kw next rest hn _ ih =>
    intro k hk
    obtain ⟨k, rfl⟩ : ∃ j, k = j + 1 := ⟨k - 1, by omega⟩
    rw [subPath_sub hp hn]
    have h1 := joinSlash_length kw next rest
    exact ih hp.tail k (by omega)

/-! ## The text of a pointer -/

theorem foldl_slash (ts : List String) : ∀ acc : String,
    (ts.foldl (fun acc x => acc ++ "/" ++ x) acc).toList = acc.toList ++ (ts.map (fun t => '/' :: t.toList)).flatten := by
  induction ts with
  | nil => intro acc; simp
  | cons t ts ih =>
    intro acc
    rw [List.foldl_cons, ih]
    simp [String.toList_append]

theorem flatten_slash (t : String) (ts : List String) :
    ((t :: ts).map (fun t => '/' :: t.toList)).flatten = '/' :: joinSlash (t :: ts) := by
  induction ts generalizing t with
  | nil => simp [joinSlash]
  | cons u us ih =>
    rw [List.map_cons, List.flatten_cons, ih u, joinSlash]
    rfl

theorem pointerText_toList (t : String) (ts : List String) :
    (pointerText (t :: ts)).toList = '#' :: '/' :: joinSlash (t :: ts) := by
  rw [pointerText, foldl_slash, flatten_slash]
  rfl

theorem pointer_eq (t : String) (ts : List String) :
    (pointerText (t :: ts)).toList = joinSlash ("#" :: t :: ts) := pointerText_toList t ts

/-- Resolving the text of a pointer is resolving its tokens from the root. -/
theorem resolve_pointer (n : SchemaNode) (t : String) (ts : List String) (h : PlainTokens (t :: ts)) :
    ∃ k, (joinSlash (t :: ts)).length < k ∧
      resolveSubReferencePath (some n) (pointerText (t :: ts)) = subPath k (some n) (joinSlash (t :: ts)) := by
  refine ⟨(joinSlash ("#" :: t :: ts)).length, joinSlash_length _ _ _, ?_⟩
  unfold resolveSubReferencePath
  rw [pointer_eq, subPath_kw]
  · simp only [String.reduceEq, if_true, if_false]
  · intro x hx
    rcases List.mem_cons.1 hx with rfl | hx
    · decide
    · exact h x hx

theorem no_newline_join : ∀ {ts : List String}, PlainTokens ts → '\n' ∉ joinSlash ts
  | [], _ => by simp [joinSlash]
  | [t], h => (h t (by simp)).2.2
  | t :: u :: ts, h => by
    rw [joinSlash, List.mem_append, List.mem_cons]
    rintro (h1 | h1 | h1)
    · exact (h t (by simp)).2.2 h1
    · revert h1; decide
    · exact no_newline_join h.tail h1

/-- **C45.** A reference `#/…` inside a document whose tokens lead to a schema resolves to that schema, in the document
being read, and changes nothing else. -/
theorem C45_pointer_resolves (c : PEnv) (s : PSt) (n t : SchemaNode) (ts : List String) (hp : PlainTokens ts)
    (hd : lookupKV s.docs (if s.resolvingId ≠ "" then s.resolvingId else s.parsingId) = some n) (h : PointsTo n ts t) :
    resolvePath c (pointerText ts) s =
      .ok (.ok (t, (if s.resolvingId ≠ "" then s.resolvingId else s.parsingId) ++ pointerText ts)) s := by
  have key : resolveSubReferencePath (some n) (pointerText ts) s = .ok (.ok t) s := by
    cases ts with
    | nil => cases h; rfl
    | cons u us =>
      obtain ⟨k, hk, he⟩ := resolve_pointer n u us hp
      rw [he]
      exact subPath_points h hp s k hk
  have hsp : splitHash (pointerText ts).toList = ([], (pointerText ts).toList) := by
    cases ts with
    | nil => rfl
    | cons u us => rw [pointerText_toList]; rfl
  have hnl : '\n' ∉ (pointerText ts).toList := by
    cases ts with
    | nil => decide
    | cons u us =>
      rw [pointerText_toList]
      have := no_newline_join hp
      simp only [List.mem_cons, not_or]
      exact ⟨by decide, by decide, this⟩
  have hr : orRoot (pointerText ts) = pointerText ts := by
    unfold orRoot
    rw [if_neg]
    intro e
    cases ts with
    | nil => revert e; decide
    | cons u us =>
      have := pointerText_toList u us
      rw [e] at this
      cases this
  unfold resolvePath matchDocumentRegex
  rw [hsp]
  dsimp only
  rw [if_neg hnl, String.ofList_toList]
  refine Comp.bind_ok.2 ⟨(String.ofList [], pointerText ts), s, rfl, ?_⟩
  dsimp only
  rw [hr]
  refine (congrFun (if_pos (by rfl)) s).trans ?_
  refine Comp.bind_ok.2 ⟨_, s, rfl, ?_⟩
  refine Comp.bind_ok.2 ⟨some n, s, ?_, ?_⟩
  · exact congrArg (fun x => Res.ok x s) hd
  · exact Comp.bind_ok.2 ⟨_, s, key, rfl⟩

/-- **C45, missing names.** If a name along the way is missing the reference is an error, not a panic and not some other
schema. -/
theorem C45_missing_name_reported (n : SchemaNode) (ts : List String) (s : PSt) (hp : PlainTokens ts) (h : Dangles n ts) :
    ∃ e, resolveSubReferencePath (some n) (pointerText ts) s = .ok (.error e) s := by
  cases ts with
  | nil => cases h
  | cons u us =>
    obtain ⟨k, hk, he⟩ := resolve_pointer n u us hp
    rw [he]
    exact subPath_dangles h hp s k hk

/-! ## Concrete pointers, and the pointers the code gets wrong -/

/-- `{"$defs": {"a": {"not": {"properties": {"x": {"minLength": 3}}}}, "list": {"items": {"properties": {"y":
{"minLength": 4}}}}}, "allOf": [{"minLength": 1}], "not": {"minLength": 2}}`. -/
def pointerDoc : SchemaNode :=
  { defs := some [("a", { not := some { properties := some [("x", { minLength := some 3 })] } }),
      ("list", { items := some { node := some { properties := some [("y", { minLength := some 4 })] } } })],
    allOf := some [{ minLength := some 1 }], not := some { minLength := some 2 } }

/-- A pointer through `$defs`, `not` and `properties`. -/
example : PointsTo pointerDoc ["$defs", "a", "not", "properties", "x"] { minLength := some 3 } :=
  .named _ _ _ _ _ _ (.defs _ rfl rfl) (.sub _ _ _ _ _ _ (.not rfl) (.named _ _ _ _ _ _ (.properties _ rfl rfl) (.here _)))

example : PointsTo pointerDoc ["$defs", "list", "items", "properties", "y"] { minLength := some 4 } :=
  .named _ _ _ _ _ _ (.defs _ rfl rfl) (.items _ _ _ _ _ _ rfl rfl ⟨'p', by decide⟩
    (.named _ _ _ _ _ _ (.properties _ rfl rfl) (.here _)))

example : PlainTokens ["$defs", "a", "not", "properties", "x"] := by unfold PlainTokens; decide

example : pointerText ["$defs", "a", "not", "properties", "x"] = "#/$defs/a/not/properties/x" := by decide

example : Dangles pointerDoc ["$defs", "a", "not", "properties", "z"] :=
  .named _ _ _ _ _ (.defs _ rfl rfl) (.sub _ _ _ _ _ (.not rfl) (.missing _ _ _ _ (by decide) (by
    intro t h
    generalize hk : "properties" = kw at h
    cases h with
    | properties m h1 h2 =>
      injection h1 with h1
      subst h1
      cases h2
    | patternProperties m h1 h2 => cases h1
    | definitions m h1 h2 => cases h1
    | defs m h1 h2 => cases h1)))

/-- What a resolution returned: the `minLength` of the schema, an error, or a panic. -/
def outcomeOf (r : Res PSt (Except Err SchemaNode)) : String × Option Int :=
  match r with
  | .ok (.ok n) _ => ("schema", n.minLength)
  | .ok (.error _) _ => ("error", none)
  | .panic _ => ("panic", none)
  | .oom => ("oom", none)

/-- A pointer that ends in a keyword returns the schema around it: `#/not` gives the whole document (which has no
`minLength`) instead of the negated schema (`minLength` 2). -/
theorem C45_keyword_end_violation :
    outcomeOf (resolveSubReferencePath (some pointerDoc) "#/not" emptyPSt) = ("schema", none) ∧
      pointerDoc.not.map (fun t => t.minLength) = some (some 2) := by decide +kernel

/-- No pointer into an array ever resolves: an index inside the array is an error and the first index after it panics. -/
theorem C45_array_index_violation :
    outcomeOf (resolveSubReferencePath (some pointerDoc) "#/allOf/0" emptyPSt) = ("error", none) ∧
      outcomeOf (resolveSubReferencePath (some pointerDoc) "#/allOf/1" emptyPSt) = ("panic", none) := by decide +kernel

/-- A pointer into an absent `additionalProperties`, `items` or `additionalItems` panics. -/
theorem C45_absent_keyword_violation :
    outcomeOf (resolveSubReferencePath (some pointerDoc) "#/additionalProperties/not/x" emptyPSt) = ("panic", none) ∧
      outcomeOf (resolveSubReferencePath (some pointerDoc) "#/items/not/x" emptyPSt) = ("panic", none) ∧
      outcomeOf (resolveSubReferencePath (some pointerDoc) "#/additionalItems/not/x" emptyPSt) = ("panic", none) := by
  decide +kernel

/-- Escapes are not decoded: the property `a/b` cannot be reached as `a~1b`. -/
theorem C45_escape_violation :
    outcomeOf (resolveSubReferencePath (some { properties := some [("a/b", { minLength := some 7 })] })
      "#/properties/a~1b" emptyPSt) = ("error", none) := by decide +kernel

/-- In general: an array step never yields a schema, whatever the index. -/
theorem C45_array_index_never_resolves (sub : Option SchemaNode → List Char → P (Except Err SchemaNode))
    (nodes : Option (List SchemaNode)) (path : List Char) (s s' : PSt) (t : SchemaNode) :
    resolveSlice sub nodes path s ≠ .ok (.ok t) s' := by
  unfold resolveSlice
  cases nodes with
  | none => intro h; cases h
  | some l =>
    dsimp only
    cases atoi (pathToken path).1 with
    | none => intro h; cases h
    | some i =>
      dsimp only
      split
      · intro h; cases h
      · rename_i hi
        have : l[i.toNat]? = none := by
          apply List.getElem?_eq_none
          unfold goLen at hi
          omega
        rw [this]
        intro h
        cases h

end Chaff
