import Verif.Lemmas.Concurs
import Verif.Lemmas.EndsAcyclic
import Verif.Props.Rewrite
/-!
# References as members of combinations

A member that is a reference is replaced by the schema it denotes, which is the one the specification means.
-/

namespace Chaff
open Comp

/-! ## Tokens -/

/-- The text of a pointer determines its tokens. -/
theorem pointerText_chars (ts : List String) : (pointerText ts).toList = '#' :: ts.flatMap (fun t => '/' :: t.toList) := by
  rw [pointerText_eq]
  have key : ∀ (l : List String) (a : String),
      (l.foldl (fun acc x => acc ++ "/" ++ x) a).toList = a.toList ++ l.flatMap (fun t => '/' :: t.toList) := by
    intro l
    induction l with
    | nil => intro a; simp
    | cons x l ih => intro a; rw [List.foldl_cons, ih]; simp
  exact key ts "#"

theorem takeWhile_token {t : String} (h : '/' ∉ t.toList) (us : List String) :
    (t.toList ++ us.flatMap (fun t => '/' :: t.toList)).takeWhile (fun x => x != '/') = t.toList := by
  have h1 : ∀ x ∈ t.toList, (x != '/') = true := by
    intro x hx
    simp only [bne_iff_ne]
    rintro rfl
    exact h hx
  rw [List.takeWhile_append_of_pos h1]
  cases us with
  | nil => simp
  | cons u us => simp

theorem tokens_inj : ∀ {ts us : List String}, PlainTokens ts → PlainTokens us →
    ts.flatMap (fun t => '/' :: t.toList) = us.flatMap (fun t => '/' :: t.toList) → ts = us
  | [], [], _, _, _ => rfl
  | [], _ :: _, _, _, h => by simp at h
  | _ :: _, [], _, _, h => by simp at h
  | t :: ts, u :: us, h1, h2, h => by
    simp only [List.flatMap_cons, List.cons_append, List.cons.injEq, true_and] at h
    have ht := takeWhile_token (h1 t (by simp)).2.1 ts
    have hu := takeWhile_token (h2 u (by simp)).2.1 us
    rw [h, hu] at ht
    have htu : u = t := String.toList_inj.1 ht
    subst htu
    rw [tokens_inj (fun x hx => h1 x (by simp [hx])) (fun x hx => h2 x (by simp [hx])) (List.append_cancel_left h)]

theorem pointerText_inj {ts us : List String} (h1 : PlainTokens ts) (h2 : PlainTokens us)
    (h : pointerText ts = pointerText us) : ts = us := by
  have := congrArg String.toList h
  rw [pointerText_chars, pointerText_chars] at this
  exact tokens_inj h1 h2 (List.cons.inj this).2

theorem target_of_points {n t : SchemaNode} {us : List String} (hp : PlainTokens us) (h : PointsTo n us t) :
    Target n (pointerText us) t := by
  intro s
  cases us with
  | nil => cases h; rfl
  | cons u us =>
    obtain ⟨k, hk, he⟩ := resolve_pointer n u us hp
    rw [he]
    exact subPath_points h hp s k hk

theorem Target.unique {n t t' : SchemaNode} {p : String} (s : PSt) (h : Target n p t) (h' : Target n p t') : t = t' := by
  have := (h s).symm.trans (h' s)
  cases this
  rfl

theorem splitBar_of_free : ∀ (a b : List Char), '|' ∉ a → (splitBar (a ++ '|' :: b)).1 = a
  | [], b, _ => by simp [splitBar]
  | x :: a, b, h => by
    have hx : x ≠ '|' := fun e => h (by simp [e])
    rw [List.cons_append, splitBar, if_neg hx]
    rw [splitBar_of_free a b fun h' => h (List.mem_cons_of_mem _ h')]

theorem splitBar_key {a b : String} (h : '|' ∉ a.toList) : String.ofList (splitBar (resKey a b).toList).1 = a := by
  unfold resKey
  have : (a ++ "|" ++ b).toList = a.toList ++ '|' :: b.toList := by simp
  rw [this, splitBar_of_free _ _ h, String.ofList_toList]

theorem resKey_inj {a b b' : String} (h : resKey a b = resKey a b') : b = b' := by
  have := congrArg String.toList h
  unfold resKey at this
  simp only [String.toList_append, List.append_assoc] at this
  have := List.append_cancel_left this
  have := List.append_cancel_left this
  exact String.toList_inj.1 this

section
variable {c : PEnv} {o : Opts} {root : SchemaNode} {R : Places} {pid : String} {ts : List String} {e : Nat}

theorem Good.oneDoc {s : PSt} (hg : Good c root R pid e ts s) (hf : Followable c root) (hoff : ¬ Off root ts) :
    OneDoc pid root s := by
  obtain ⟨w1, w2, w3, w4, w5⟩ := hg.world hf
  have hpid : HashFree pid := by rw [w1]; exact hf.hash
  refine ⟨w2, w3, w4, w5, by rw [hg.parsing]; exact hpid, ?_, ?_⟩
  · rcases hg.resolving with h | h
    · rw [h]; show '#' ∉ "".toList; simp
    · rw [h]; exact hpid
  · intro r hr
    rcases hg.stack with h | h
    · exact (hoff h).elim
    · obtain ⟨us, _, _, rfl⟩ := h r hr
      exact resKey_free hpid

theorem warnMerge_errors {f : String} {x : Err} {s s' : PSt} {a : Unit} (h : warnMerge f x s = .ok a s') : s'.errors ≠ [] := by
  unfold warnMerge addErrorSub at h
  rw [modS_apply] at h
  injection h with _ h
  rw [← h]
  simp

/-- A reference that is not being resolved is replaced by what it denotes. -/
theorem follow_ref {s s1 : PSt} {us : List String} {t : SchemaNode} {k : Nat} {p : SchemaNode × Bool}
    (hg : Good c root R pid e ts s) (hf : Followable c root) (hoff : ¬ Off root ts) (hu : PlainTokens us) (hpt : PointsTo root us t)
    (hout : ¬ us <+: ts) (htext : Faithful t) (hstr : refsAreStrings (encodeNode t) = true) (hfree : refTexts (encodeNode t) = [])
    (href : t.ref = none)
    (h : mergeResolveNodeRef c k { emptyNode with ref := some (pointerText us) } s = .ok p s1) (he : s1.errors = []) :
    p = (t, true) ∧ s1 = { s with resolvingId := pid, resolutions := resKey pid (pointerText us) :: s.resolutions } := by
  have hone := hg.oneDoc hf hoff
  have hscope : scopeOf s = pid := hg.scope
  have hpid : HashFree pid := by rw [(hg.world hf).key]; exact hf.hash
  obtain ⟨u, hh⟩ : ∃ u, (pointerText us).toList = '#' :: u := ⟨_, pointerText_chars us⟩
  have hkey : fragKey (pointerText us) = pointerText us := fragKey_of_hash hh
  unfold mergeResolveNodeRef at h
  simp only at h
  obtain ⟨r, s2, h1, h2⟩ := bind_ok.1 h
  rcases locate_offline (c := c) hone (pointerText us) with ⟨m, hm⟩ | hm
  · rw [hm] at h1; cases h1
  rw [hm] at h1
  cases h1
  rw [hscope, hkey] at h2
  simp only at h2
  obtain ⟨seen, s3, h3, h4⟩ := bind_ok.1 h2
  unfold hasRes at h3
  cases h3
  have hseen : resKey pid (pointerText us) ∉ s.resolutions := by
    intro hm
    rcases hg.stack with h | h
    · exact hoff h
    · obtain ⟨vs, h1, h2, h3⟩ := h _ hm
      have := pointerText_inj hu h2 (resKey_inj h3)
      subst this
      exact hout h1
  rw [if_neg (by simpa using hseen)] at h4
  obtain ⟨r, s4, h5, h6⟩ := bind_ok.1 h4
  cases r with
  | error x =>
    simp only at h6
    obtain ⟨_, s5, h7, h8⟩ := bind_ok.1 h6
    obtain ⟨_, rfl⟩ := pure_ok.1 h8
    exact (warnMerge_errors h7 he).elim
  | ok n =>
    simp only at h6
    obtain ⟨_, s5, h7, h8⟩ := bind_ok.1 h6
    obtain ⟨rfl, rfl⟩ := pure_ok.1 h8
    unfold pushRes at h7
    rw [modS_apply] at h7
    injection h7 with _ h7
    have key : n = t ∧ ∃ d, s4 = { s with resolvingId := d } ∧ d = pid := by
      unfold mergeResolveReference at h5
      obtain ⟨r, s6, h9, h10⟩ := bind_ok.1 h5
      obtain ⟨id, s7, h11, h12⟩ := bind_ok.1 h10
      cases h11
      obtain ⟨_, s8, h13, h14⟩ := bind_ok.1 h12
      obtain ⟨rfl, rfl⟩ := pure_ok.1 h14
      unfold setResolving at h13
      rw [modS_apply] at h13
      injection h13 with _ h13
      unfold resolveRefBody at h9
      obtain ⟨r, s9, h15, h16⟩ := bind_ok.1 h9
      cases r with
      | error x =>
        simp only at h16
        cases (pure_ok.1 h16).1
      | ok n' =>
        simp only at h16
        obtain ⟨r, s10, h17, h18⟩ := bind_ok.1 h16
        have hloop : n' = t ∧ ∃ d, s9 = { s with resolvingId := d } := by
          cases k with
          | zero => simp [resolveRefLoop] at h15
          | succ k =>
            rw [resolveRefLoop] at h15
            simp only at h15
            obtain ⟨r, s11, h19, h20⟩ := bind_ok.1 h15
            rcases resolvePath_offline (c := c) hone (pid ++ pointerText us) with ⟨m, hm⟩ | ⟨x, d, _, hm, ht⟩
            · rw [hm] at h19; cases h19
            rw [hm] at h19
            cases h19
            cases r with
            | error x =>
              simp only at h20
              obtain ⟨_, s12, h21, h22⟩ := bind_ok.1 h20
              cases (pure_ok.1 h22).1
            | ok q =>
              obtain ⟨next, sub⟩ := q
              have htn := ht next sub rfl
              have : fragKey (pid ++ pointerText us) = pointerText us := by
                have := fragKey_append hpid (pointerText us)
                rwa [hkey] at this
              rw [this] at htn
              have hnt := htn.unique s (target_of_points hu hpt)
              subst hnt
              simp only [List.not_mem_nil, if_false] at h20
              cases k with
              | zero => simp [resolveRefLoop] at h20
              | succ k =>
                rw [resolveRefLoop] at h20
                rw [href] at h20
                obtain ⟨h21, rfl⟩ := pure_ok.1 h20
                cases h21
                exact ⟨rfl, d, rfl⟩
        obtain ⟨rfl, d, rfl⟩ := hloop
        rw [C54_no_references_unchanged c n' _ htext hstr hfree] at h17
        cases h17
        simp only at h18
        obtain ⟨h21, rfl⟩ := pure_ok.1 h18
        cases h21
        refine ⟨rfl, _, h13.symm, hg.parsing⟩
    obtain ⟨rfl, d, rfl, rfl⟩ := key
    exact ⟨rfl, h7.symm⟩

/-- Only the document that is being resolved may have been set. -/
def Moved (pid : String) (s s' : PSt) : Prop := ∃ d, s' = { s with resolvingId := d } ∧ (d = "" ∨ d = pid)

theorem Good.unmoved {s : PSt} (hg : Good c root R pid e ts s) : Moved pid s s := ⟨s.resolvingId, rfl, hg.resolving⟩

theorem Good.moved {s s' : PSt} (hg : Good c root R pid e ts s) (h : Moved pid s s') : Good c root R pid e ts s' := by
  obtain ⟨d, rfl, hd⟩ := h
  exact ⟨hg.parsing, hd, hg.queue, hg.path, hg.depth, hg.refs, hg.stack,
    fun f => ⟨(hg.world f).1, (hg.world f).2, (hg.world f).3, (hg.world f).4, (hg.world f).5⟩, hg.texts⟩

theorem Moved.trans {s s' s'' : PSt} (h : Moved pid s s') (h' : Moved pid s' s'') : Moved pid s s'' := by
  obtain ⟨d, rfl, _⟩ := h
  obtain ⟨d', rfl, hd⟩ := h'
  exact ⟨d', rfl, hd⟩

/-- A value is valid against a reference if it is valid against what the reference denotes. -/
theorem Below.refer {r t : SchemaNode} {us : List String} {d : Nat} (hu : PlainTokens us) (hin : Inside root d us t)
    (h : Below c root r t) : Below c root r { emptyNode with ref := some (pointerText us) } := by
  intro v hv
  have hcov : Covered ({ emptyNode with ref := some (pointerText us) } : SchemaNode) := by
    constructor <;> first | rfl | nofun
  refine .basic _ v t emptyNode [] hcov ?_ ?_ (fun _ _ => h v hv) nofun nofun nofun ?_ ?_ ?_ ?_ ?_ ?_ ?_
  · constructor
    case number =>
      intro q _
      refine ⟨nofun, nofun, ?_, ?_, ?_⟩ <;> (intros; contradiction)
    all_goals (intros; first | contradiction | (intro _ h; cases h))
  · intro r hr
    cases hr
    exact ⟨d, us, hu, rfl, hin⟩
  all_goals (intros; contradiction)

variable {ty : ValuePath → Kind} {rec : MergeRec} {b : Nat} {A : SchemaNode → Prop}

/-- One member that is a reference. -/
theorem mergeOne_follow (hk : ∀ l, Keeps c (rec l)) (hrec : RecConcurs c o root ty rec) {s s' : PSt} {us : List String}
    {t m r : SchemaNode} {k d : Nat} (hg : Good c root R pid e ts s) (hf : Followable c root) (hoff : ¬ Off root ts)
    (hu : PlainTokens us) (hin : Inside root d us t) (hpt : PointsTo root us t) (hout : ¬ us <+: ts) (htext : Faithful t)
    (hstr : refsAreStrings (encodeNode t) = true) (hfree : refTexts (encodeNode t) = []) (ht : Concurs c o ty b [] t)
    (hm : Concurs c o ty b [] m)
    (h : mergeOne c k rec m { emptyNode with ref := some (pointerText us) } s = .ok r s') (he : s'.errors = []) :
    Moved pid s s' ∧ Concurs c o ty b [] r ∧ Below c root r m ∧
      Below c root r { emptyNode with ref := some (pointerText us) } := by
  unfold mergeOne at h
  obtain ⟨p, s1, h1, h2⟩ := bind_ok.1 h
  obtain ⟨n, s2, h3, h4⟩ := bind_ok.1 h2
  obtain ⟨x, s3, h5, h6⟩ := bind_ok.1 h4
  obtain ⟨_, s4, h7, h8⟩ := bind_ok.1 h6
  obtain ⟨rfl, rfl⟩ := pure_ok.1 h8
  have e3 : s3.errors = [] := by
    unfold leaveRef at h7
    split at h7
    · obtain ⟨_, s5, h9, h10⟩ := bind_ok.1 h7
      obtain ⟨_, s6, h11, h12⟩ := bind_ok.1 h10
      cases h11
      unfold setResolving at h12
      rw [modS_apply] at h12
      injection h12 with _ h12
      unfold popRes at h9
      cases hr : s3.resolutions with
      | nil => rw [hr] at h9; cases h9
      | cons y l => rw [hr] at h9; cases h9; rw [← h12] at he; exact he
    · obtain ⟨_, rfl⟩ := pure_ok.1 h7; exact he
  have e2 := (keeps_mergeFields (c := c) hk m n s2 x s3 h5).noErrors e3
  have e1 := (keeps_flattenResolved (c := c) hk p.1 p.2 s1 n s2 h3).noErrors e2
  obtain ⟨rfl, hs1⟩ := follow_ref hg hf hoff hu hpt hout htext hstr hfree ht.mergeable.ref h1 e1
  have hflat : s2 = s1 ∧ Concurs c o ty b [] n ∧ Below c root n t := by
    unfold flattenResolved at h3
    simp only at h3
    cases hal : t.allOf with
    | none =>
      rw [hal] at h3
      obtain ⟨rfl, rfl⟩ := pure_ok.1 h3
      exact ⟨rfl, ht, .refl _⟩
    | some l =>
      rw [hal] at h3
      simp only [if_true] at h3
      have hc := ht.combines (A := fun _ => True)
      have hno := hc.noAllOf.concurs ht.mergeable.anyOf ht.mergeable.defs ht.mergeable.definitions
      obtain ⟨q1, q2, q3⟩ := hrec b [] _ s1 n s2 (by simp) (by
        intro y hy
        rcases List.mem_append.1 hy with hy | hy
        · exact hc.members hal y hy
        · rw [List.mem_singleton.1 hy]; exact hno) h3 e2
      refine ⟨q1, q2, ?_⟩
      intro v hv
      refine valid_allOf (q3 _ (by simp) v hv) ?_
      intro l' y hl' hy
      rw [hal] at hl'
      cases hl'
      exact q3 y (by simp [hy]) v hv
  obtain ⟨rfl, hn, hbn⟩ := hflat
  obtain ⟨rfl, g2, g3, g4, g5, g6, g7⟩ := fields_concur hk hrec hm (hn.combines (A := fun _ => True)) h5 e3
  refine ⟨?_, g2.concurs (g5.trans hn.mergeable.anyOf) g3 g4, g6, Below.refer hu hin (g7.trans hbn)⟩
  subst hs1
  unfold leaveRef at h7
  simp only [if_true] at h7
  obtain ⟨_, s5, h9, h10⟩ := bind_ok.1 h7
  obtain ⟨_, s6, h11, h12⟩ := bind_ok.1 h10
  cases h11
  unfold popRes at h9
  cases h9
  unfold setResolving at h12
  rw [modS_apply] at h12
  injection h12 with _ h12
  refine ⟨_, h12.symm, ?_⟩
  simp only
  cases hr : s.resolutions with
  | nil => exact .inl rfl
  | cons y l =>
    right
    rcases hg.stack with h | h
    · exact (hoff h).elim
    · obtain ⟨vs, _, _, rfl⟩ := h y (by rw [hr]; simp)
      unfold currentResolution
      exact splitBar_key (by rw [(hg.world hf).key]; exact hf.bar)

/-- Merging with a member. -/
theorem mergeOne_member (hk : ∀ l, Keeps c (rec l)) (hrec : RecConcurs c o root ty rec) {s s' : PSt}
    {n m r : SchemaNode} {k : Nat} (hg : Good c root R pid e ts s) (hoff : ¬ Off root ts)
    (hn : Member c o root ty b ts n) (hm : Concurs c o ty b [] m)
    (h : mergeOne c k rec m n s = .ok r s') (he : s'.errors = []) :
    Moved pid s s' ∧ Concurs c o ty b [] r ∧ Below c root r m ∧ Below c root r n := by
  cases hn with
  | own hn =>
    rw [mergeOne_plain hn.mergeable.ref] at h
    obtain ⟨rfl, g2, g3, g4, g5, g6, g7⟩ := fields_concur hk hrec hm (hn.combines (A := fun _ => True)) h he
    exact ⟨hg.unmoved, g2.concurs (g5.trans hn.mergeable.anyOf) g3 g4, g6, g7⟩
  | refer us t hf hu hin hpt hout htext hstr hfree hc =>
    exact mergeOne_follow hk hrec hg hf hoff hu hin hpt hout htext hstr hfree hc hm h he

theorem Member.concurs_empty {n : SchemaNode} (h : Member c o root ty b ts n) : Concurs c o ty b [] emptyNode := by
  cases h with
  | own hn => exact (hn.combines (A := fun _ => True)).empty
  | refer us t _ _ _ _ _ _ _ _ hc => exact (hc.combines (A := fun _ => True)).empty

theorem Member.noAnyOf {n : SchemaNode} (h : Member c o root ty b ts n) : n.anyOf = none := by
  cases h with
  | own hn => exact hn.mergeable.anyOf
  | refer us t _ _ _ _ _ _ _ _ hc => rfl

theorem Member.ref {n : SchemaNode} (h : Member c o root ty b ts n) : n.ref = none ∨ ∃ us, n.ref = some (pointerText us) := by
  cases h with
  | own hn => exact .inl hn.mergeable.ref
  | refer us t _ _ _ _ _ _ _ _ hc => exact .inr ⟨us, rfl⟩

/-- The last schema of a merge. -/
def Last (c : PEnv) (o : Opts) (root : SchemaNode) (ty : ValuePath → Kind) (A : SchemaNode → Prop) (b : Nat) (ts : List String)
    (z : SchemaNode) : Prop := Combines c o ty A b [] z ∨ Member c o root ty b ts z

theorem loop_follow (hk : ∀ l, Keeps c (rec l)) (hrec : RecConcurs c o root ty rec) (hoff : ¬ Off root ts) {k : Nat} {z : SchemaNode} :
    ∀ (l : List SchemaNode) (m : SchemaNode) (s : PSt) (r : SchemaNode) (s' : PSt), Good c root R pid e ts s →
      Concurs c o ty b [] m → (∀ x ∈ l, Member c o root ty b ts x) → Last c o root ty A b ts z →
      mergeLoop c k rec m (l ++ [z]) s = .ok r s' →
      s'.errors = [] → Moved pid s s' ∧ Merged c o root ty A b [] (m :: l) z r := by
  intro l
  induction l with
  | nil =>
    intro m s r s' hg hm _ hz h he
    rw [List.nil_append] at h
    unfold mergeLoop at h
    obtain ⟨x, s1, h1, h2⟩ := bind_ok.1 h
    unfold mergeLoop at h2
    obtain ⟨rfl, rfl⟩ := pure_ok.1 h2
    rcases hz with hz | hz
    · rw [mergeOne_plain (n := z) hz.mergeable.ref] at h1
      obtain ⟨rfl, g2, g3, g4, g5, g6, g7⟩ := fields_concur hk hrec hm hz h1 he
      exact ⟨hg.unmoved, g2, g3, g4, g5, fun a ha => by rw [List.mem_singleton.1 ha]; exact g6, g7⟩
    · obtain ⟨g1, g2, g3, g4⟩ := mergeOne_member hk hrec hg hoff hz hm h1 he
      exact ⟨g1, g2.combines, g2.mergeable.defs, g2.mergeable.definitions, g2.mergeable.anyOf.trans hz.noAnyOf.symm,
        fun a ha => by rw [List.mem_singleton.1 ha]; exact g3, g4⟩
  | cons n l ih =>
    intro m s r s' hg hm hl hz h he
    rw [List.cons_append] at h
    unfold mergeLoop at h
    obtain ⟨x, s1, h1, h2⟩ := bind_ok.1 h
    have he1 := ((keeps_mergeLoop hk _ _) s1 r s' h2).noErrors he
    obtain ⟨g1, g2, g3, g4⟩ := mergeOne_member hk hrec hg hoff (hl n (by simp)) hm h1 he1
    obtain ⟨i1, i2⟩ := ih x s1 r s' (hg.moved g1) g2 (fun y hy => hl y (by simp [hy])) hz h2 he
    refine ⟨g1.trans i1, i2.combines, i2.defs, i2.definitions, i2.anyOf, ?_, i2.last⟩
    intro a ha
    have hbx := i2.members x (by simp)
    rcases List.mem_cons.1 ha with rfl | ha
    · exact hbx.trans g3
    rcases List.mem_cons.1 ha with rfl | ha
    · exact hbx.trans g4
    · exact i2.members a (by simp [ha])

/-- A merge of members at a place of the document. -/
theorem goes_follow {k : Nat} {l : List SchemaNode} {z : SchemaNode} (hoff : ¬ Off root ts)
    (hl : ∀ x ∈ l, Member c o root ty b ts x) (hz : Last c o root ty A b ts z) :
    Goes c root R pid e ts (mergeNodes c k (l ++ [z]))
      (fun m => Merged c o root ty A b [] l z m ∧ ((e : Int) + 1 ≤ c.maxParseDepth → m.allOf = none)) := by
  intro s r s' hg h he
  cases k with
  | zero => simp [mergeNodes] at h
  | succ k =>
    have hk := fun l => keeps_mergeNodes (c := c) k l
    have ih := merge_concur (c := c) (o := o) (root := root) (ty := ty) k
    unfold mergeNodes mergeStep at h
    obtain ⟨m, s1, h1, h2⟩ := bind_ok.1 h
    have he1 := ((keeps_flattenResidual hk k m) s1 r s' h2).noErrors he
    have hempty : Concurs c o ty b [] emptyNode := by
      rcases hz with hz | hz
      · exact hz.empty
      · exact hz.concurs_empty
    obtain ⟨g1, g⟩ := loop_follow hk ih.concurs hoff l emptyNode s m s1 hg hempty hl hz h1 he1
    obtain ⟨i1, i2, i3⟩ := residual_concur hk ih k m s1 r s' g.combines g.defs g.definitions h2 he
    have hg1 := hg.moved g1
    subst i1
    refine ⟨hg1, ⟨i2.combines, i2.defs, i2.definitions, i2.anyOf.trans g.anyOf,
      fun a ha => i2.last.trans (g.members a (by simp [ha])), i2.last.trans g.last⟩, fun hd => i3 ?_⟩
    have := hg1.depth
    omega

end

end Chaff
