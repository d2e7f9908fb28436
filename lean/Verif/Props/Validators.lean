import Verif.Props.Types
import Verif.Props.Rewrite
/-!
# C60: which schema a validator is compiled from

Validators are compiled from texts that are registered under a name made of the document, the position and the keyword.
-/

namespace Chaff
open Comp

/-- Characters that the naming scheme cannot tell apart. -/
def blurred : List Char := ['_', '/', '#', '-', '.', ',', ' ', '\t', '\n', '\r', '\x0c']

/-- Two characters that look the same in a name. -/
def Confusable (x y : Char) : Prop := x = y ∨ (x ∈ blurred ∧ y ∈ blurred)

theorem isSanitised_iff (x : Char) : isSanitised x = true ∨ x = '_' ↔ x ∈ blurred := by
  unfold isSanitised blurred
  simp only [Bool.or_eq_true, decide_eq_true_eq, List.mem_cons, List.not_mem_nil, or_false]
  tauto

theorem sanitise_eq (x y : Char) : (if isSanitised x then '_' else x) = (if isSanitised y then '_' else y) ↔ Confusable x y := by
  unfold Confusable
  rw [← isSanitised_iff, ← isSanitised_iff]
  cases hx : isSanitised x <;> cases hy : isSanitised y <;> simp
  · intro h1 h2; rw [h1, h2]
  · rintro rfl; rw [hx] at hy; cases hy
  · constructor
    · intro h; exact Or.inr h.symm
    · rintro (rfl | h)
      · rw [hx] at hy; cases hy
      · exact h.symm

theorem normalisePath_eq (p q : String) : normalisePath p = normalisePath q ↔ List.Forall₂ Confusable p.toList q.toList := by
  unfold normalisePath
  rw [String.ofList_inj]
  generalize p.toList = a
  generalize q.toList = b
  induction a generalizing b with
  | nil => cases b <;> simp
  | cons x t ih =>
    cases b with
    | nil => simp
    | cons y u =>
      rw [List.map_cons, List.map_cons, List.cons.injEq, List.forall₂_cons, ih, sanitise_eq]

/-- **C60, when names collide.** Two positions of one document share a name exactly when their paths agree up to the
characters that the naming scheme cannot tell apart. -/
theorem C60_names_collide (scope p f p' f' : String) :
    resourceKey scope p f = resourceKey scope p' f' ↔
      List.Forall₂ Confusable (p ++ "/" ++ f).toList (p' ++ "/" ++ f').toList := by
  unfold resourceKey
  rw [← normalisePath_eq]
  constructor
  · intro h
    have := congrArg String.toList h
    rw [String.toList_append, String.toList_append] at this
    exact String.toList_inj.1 (List.append_cancel_left this)
  · intro h; rw [h]

/-- **C60, own schema (partial).** If no position of the same name came before, the validator is compiled from the text
of this schema.  Missing: the other case, see `C60_first_schema_wins` and `C60_collision_violation`. -/
theorem C60_own_schema_partial (c : PEnv) (n : SchemaNode) (field : String) (s : PSt)
    (h : lookupKV s.resources (positionKey s field) = none) :
    ∃ s', validatorFor c n field s = .ok (c.compile s'.resources (positionKey s field)) s' ∧
      lookupKV s'.resources (positionKey s field) =
        some (replaceRefs (if s.resolvingId ≠ "" then s.resolvingId else s.parsingId) (encodeNode n)) := by
  have h' : lookupKV s.resources (resourceKey (if s.resolvingId ≠ "" then s.resolvingId else s.parsingId) s.path field) =
    none := h
  refine ⟨{ s with resources := s.resources ++ [(positionKey s field,
    replaceRefs (if s.resolvingId ≠ "" then s.resolvingId else s.parsingId) (encodeNode n))] }, ?_, ?_⟩
  · unfold validatorFor
    dsimp only
    rw [h']
    rfl
  exact lookupKV_append_new h'

/-- **C60 (violated), in general.** If a position of the same name came before, its text is used and the schema at hand
plays no part: any other schema would get the same validator. -/
theorem C60_first_schema_wins_violation (c : PEnv) (n n' : SchemaNode) (field : String) (s : PSt)
    (h : lookupKV s.resources (positionKey s field) ≠ none) :
    validatorFor c n field s = validatorFor c n' field s ∧
      validatorFor c n field s = .ok (c.compile s.resources (positionKey s field)) s := by
  have h' : lookupKV s.resources (resourceKey (if s.resolvingId ≠ "" then s.resolvingId else s.parsingId) s.path field) ≠
    none := h
  obtain ⟨v, hv⟩ := Option.ne_none_iff_exists'.1 h'
  unfold validatorFor
  dsimp only
  rw [hv]
  exact ⟨rfl, rfl⟩

theorem lookupKV_append_old {β : Type} {l t : List (String × β)} {k : String} {v : β} (h : lookupKV l k = some v) :
    lookupKV (l ++ t) k = some v := by
  induction l with
  | nil => simp [lookupKV] at h
  | cons p u ih =>
    obtain ⟨a, b⟩ := p
    simp only [lookupKV, List.cons_append] at h ⊢
    split
    · rename_i hk; rw [if_pos hk] at h; exact h
    · rename_i hk; rw [if_neg hk] at h; exact ih h

/-- **C60, texts are permanent.** Whatever is parsed, a registered text stays registered as it is. -/
theorem C60_texts_permanent (c : PEnv) (k : Nat) (n : SchemaNode) (s s' : PSt) (r : Gen × Option Err) (key : String) (v : JVal)
    (h : (parseRec c k).node n s = .ok r s') (hv : lookupKV s.resources key = some v) :
    lookupKV s'.resources key = some v := by
  obtain ⟨l, hl⟩ := ((keeps_parseRec k).node n s r s' h).resources
  rw [hl]
  exact lookupKV_append_old hv

/-! ## A collision in a parse -/

/-- A validator compiler that understands `enum`: it reads the registered text. -/
def compileEnum (res : List (String × JVal)) (key : String) : Option (JVal → Bool) :=
  match lookupKV res key with
  | some (.obj m) => (match lookupKV m "enum" with
    | some (.arr l) => some (fun v => l.any (JVal.jeq v))
    | _ => some (fun _ => true))
  | _ => none

/-- An environment with that compiler. -/
def enumEnv : PEnv := { demoEnv with compile := compileEnum }

/-- Properties with the given names and single-valued enumerations. -/
def twoEnums (a b : String) : JVal :=
  .obj [("properties", .obj [(a, .obj [("enum", .arr [.str "x"])]), (b, .obj [("enum", .arr [.str "y"])])])]

/-- Is there an error about the given position? -/
def errorAt (path : String) (s : PSt) : Bool := s.errors.any (fun e => e.1.2 == path)

/-- With the names `a` and `b` nothing is reported … -/
example : (parseSchema enumEnv 20 (twoEnums "a" "b")).state.map (fun s => s.errors.length) = some 0 := by decide +kernel

/-- … with `a-b` and `a_b` the satisfiable schema of `a_b` is checked against that of `a-b` and rejected. -/
theorem C60_collision_violation :
    (parseSchema enumEnv 20 (twoEnums "a-b" "a_b")).state.map (errorAt "#/properties/a_b") = some true := by
  decide +kernel

example : List.Forall₂ Confusable ("#/properties/a-b" ++ "/" ++ "enum").toList ("#/properties/a_b" ++ "/" ++ "enum").toList := by
  rw [← C60_names_collide "d"]
  decide +kernel

end Chaff
