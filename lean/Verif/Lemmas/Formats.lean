import Verif.Model.Formats
import Verif.Spec.Formats
/-!
# The format checkers are total: no index or slice is out of range
-/

namespace Chaff

theorem byteAt_some {s : Bytes} {i : Nat} (h : i < s.length) : ∃ c, byteAt s i = some c ∧ c ∈ s :=
  ⟨s[i], by simp [byteAt, h], List.getElem_mem h⟩

theorem slice_some {s : Bytes} {i j : Nat} (h1 : i ≤ j) (h2 : j ≤ s.length) :
    ∃ t, slice s i j = some t ∧ t.length = j - i := by
  refine ⟨_, if_pos ⟨h1, h2⟩, ?_⟩
  simp
  omega

theorem sliceFrom_some {s : Bytes} {i : Nat} (h : i ≤ s.length) :
    ∃ t, sliceFrom s i = some t ∧ t.length = s.length - i := slice_some h (Nat.le_refl _)

theorem isTimeZone_total (h m s : Int) (str : Bytes) : (isTimeZone h m s str).isSome := by
  unfold isTimeZone
  split
  · rfl
  · rename_i h0
    obtain ⟨c, hc, _⟩ := byteAt_some (s := str) (i := 0) (by omega)
    simp only [hc, Option.bind_eq_bind, Option.bind_some]
    split
    · split <;> rfl
    · split
      · rfl
      · rename_i h6
        obtain ⟨c3, hc3, _⟩ := byteAt_some (s := str) (i := 3) (by omega)
        obtain ⟨a, ha, _⟩ := slice_some (s := str) (i := 1) (j := 3) (by omega) (by omega)
        obtain ⟨b, hb, _⟩ := slice_some (s := str) (i := 4) (j := 6) (by omega) (by omega)
        simp only [hc3, ha, hb, Option.bind_some]
        split
        · rfl
        · split
          · rfl
          · split
            · rfl
            · split <;> rfl

theorem isTimeB_total (str : Bytes) : (isTimeB str).isSome := by
  unfold isTimeB
  split
  · rfl
  · rename_i h0
    obtain ⟨c2, hc2, _⟩ := byteAt_some (s := str) (i := 2) (by omega)
    obtain ⟨c5, hc5, _⟩ := byteAt_some (s := str) (i := 5) (by omega)
    obtain ⟨a, ha, _⟩ := slice_some (s := str) (i := 0) (j := 2) (by omega) (by omega)
    obtain ⟨b, hb, _⟩ := slice_some (s := str) (i := 3) (j := 5) (by omega) (by omega)
    obtain ⟨d, hd, _⟩ := slice_some (s := str) (i := 6) (j := 8) (by omega) (by omega)
    obtain ⟨r, hr, hl⟩ := sliceFrom_some (s := str) (i := 8) (by omega)
    obtain ⟨c, hc, _⟩ := byteAt_some (s := r) (i := 0) (by omega)
    obtain ⟨r', hr', _⟩ := sliceFrom_some (s := r) (i := 1) (by omega)
    simp only [hc2, hc5, ha, hb, hd, hr, hc, hr', Option.bind_eq_bind, Option.bind_some]
    split
    · rfl
    · split
      · rfl
      · split
        · rfl
        · split
          · rfl
          · split
            · rfl
            · split
              · split
                · rfl
                · exact isTimeZone_total _ _ _ _
              · exact isTimeZone_total _ _ _ _

theorem isDateTimeB_total (L : FormatLib) (s : Bytes) : (isDateTimeB L s).isSome := by
  unfold isDateTimeB
  split
  · rfl
  · rename_i h0
    obtain ⟨c, hc, _⟩ := byteAt_some (s := s) (i := 10) (by omega)
    obtain ⟨a, ha, _⟩ := slice_some (s := s) (i := 0) (j := 10) (by omega) (by omega)
    obtain ⟨r, hr, hl⟩ := sliceFrom_some (s := s) (i := 11) (by omega)
    simp only [hc, ha, hr, isDateB, Option.bind_eq_bind, Option.bind_some]
    split
    · rfl
    · split
      · exact isTimeB_total _
      · rfl

theorem isDurationB_total (s : Bytes) : (isDurationB s).isSome := by
  unfold isDurationB
  split
  · dsimp only
    split
    · rfl
    · split
      · rfl
      · split
        · split
          · rfl
          · split <;> rfl
        · rfl
  · rfl

theorem indexByte_lt {c : Char} {s : Bytes} {i : Nat} (h : indexByte c s = some i) : i < s.length := by
  induction s generalizing i with
  | nil => cases h
  | cons x t ih =>
    unfold indexByte at h
    split at h
    · injection h with h; subst h; simp
    · cases hi : indexByte c t with
      | none => rw [hi] at h; cases h
      | some j =>
        rw [hi] at h
        injection h with h
        subst h
        have := ih hi
        simp
        omega

theorem lastIndexByte_lt {c : Char} {s : Bytes} {i : Nat} (h : lastIndexByte c s = some i) : i < s.length := by
  induction s generalizing i with
  | nil => cases h
  | cons x t ih =>
    unfold lastIndexByte at h
    split at h
    · rename_i j hj
      injection h with h
      subst h
      have := ih hj
      simp
      omega
    · split at h
      · injection h with h; subst h; simp
      · cases h

theorem some_of_isSome {α : Type} {o : Option α} (h : o.isSome) : ∃ a, o = some a := Option.isSome_iff_exists.1 h

theorem isPeriodB_total (L : FormatLib) (s : Bytes) : (isPeriodB L s).isSome := by
  unfold isPeriodB
  split
  · rfl
  · rename_i i hi
    have hlt := indexByte_lt hi
    obtain ⟨a, ha, _⟩ := slice_some (s := s) (i := 0) (j := i) (by omega) (by omega)
    obtain ⟨r, hr, hl⟩ := sliceFrom_some (s := s) (i := i + 1) (by omega)
    obtain ⟨b1, h1⟩ := some_of_isSome (isDateTimeB_total L a)
    obtain ⟨b2, h2⟩ := some_of_isSome (isDateTimeB_total L r)
    obtain ⟨b3, h3⟩ := some_of_isSome (isDurationB_total a)
    obtain ⟨b4, h4⟩ := some_of_isSome (isDurationB_total r)
    simp only [ha, hr, h1, h2, h3, h4, Option.bind_eq_bind, Option.bind_some]
    split
    · split <;> rfl
    · split <;> rfl

theorem hostLabels_total (s : Bytes) (hs : s ≠ [] ) (l : List Bytes) : (hostLabels s l).isSome := by
  induction l with
  | nil => rfl
  | cons x t ih =>
    unfold hostLabels
    split
    · rfl
    · rename_i hx
      obtain ⟨c, hc, _⟩ := byteAt_some (s := s) (i := 0) (List.length_pos_iff.2 hs)
      obtain ⟨d, hd, _⟩ := byteAt_some (s := x) (i := x.length - 1) (by omega)
      simp only [hc, hd, Option.bind_eq_bind, Option.bind_some]
      split
      · rfl
      · split
        · rfl
        · split
          · exact ih
          · rfl

theorem isHostnameB_total (s : Bytes) : (isHostnameB s).isSome := by
  unfold isHostnameB
  dsimp only
  split
  · rfl
  · by_cases hs : trimDot s = []
    · rw [hs]; rfl
    · exact hostLabels_total _ hs _

theorem atoi_nil : goAtoi [] = none := by decide

theorem ipGroups_total (l : List Bytes) : (ipGroups l).isSome := by
  induction l with
  | nil => rfl
  | cons x t ih =>
    unfold ipGroups
    split
    · rfl
    · rename_i n hn
      have hx : x ≠ [] := fun e => by rw [e, atoi_nil] at hn; cases hn
      obtain ⟨c, hc, _⟩ := byteAt_some (s := x) (i := 0) (List.length_pos_iff.2 hx)
      simp only [hc, Option.bind_eq_bind, Option.bind_some]
      split
      · rfl
      · split
        · split
          · rfl
          · exact ih
        · exact ih

theorem isIPV4B_total (s : Bytes) : (isIPV4B s).isSome := by
  unfold isIPV4B
  dsimp only
  split
  · rfl
  · exact ipGroups_total _

theorem isIPV6B_total (L : FormatLib) (s : Bytes) : (isIPV6B L s).isSome := by
  unfold isIPV6B
  split <;> rfl

theorem isEmailB_total (L : FormatLib) (s : Bytes) : (isEmailB L s).isSome := by
  unfold isEmailB
  split
  · rfl
  · split
    · rfl
    · rename_i i hi
      have hlt := lastIndexByte_lt hi
      obtain ⟨a, ha, _⟩ := slice_some (s := s) (i := 0) (j := i) (by omega) (by omega)
      obtain ⟨r, hr, hl⟩ := sliceFrom_some (s := s) (i := i + 1) (by omega)
      obtain ⟨b1, h1⟩ := some_of_isSome (isHostnameB_total r)
      simp only [ha, hr, h1, Option.bind_eq_bind, Option.bind_some]
      split
      · rfl
      · by_cases h2 : r.length < 2
        · simp only [if_pos h2, Option.bind_some, Bool.false_eq_true, if_false]
          split <;> rfl
        · simp only [if_neg h2]
          obtain ⟨c, hc, _⟩ := byteAt_some (s := r) (i := 0) (by omega)
          obtain ⟨d, hd, _⟩ := byteAt_some (s := r) (i := r.length - 1) (by omega)
          obtain ⟨e, he, _⟩ := slice_some (s := r) (i := 1) (j := r.length - 1) (by omega) (by omega)
          simp only [hc, hd, he, Option.bind_some]
          split
          · split
            · exact isIPV6B_total L _
            · exact isIPV4B_total _
          · split <;> rfl

theorem urlParseB_total (L : FormatLib) (s : Bytes) : (urlParseB L s).isSome := by
  unfold urlParseB
  split
  · rfl
  · rename_i abs hn host rp _
    split
    · split
      · rfl
      · obtain ⟨b, h⟩ := some_of_isSome (isIPV6B_total L hn)
        simp only [h, Option.bind_eq_bind, Option.bind_some]
        split <;> rfl
    · rfl

theorem pointerToken_total (item : Bytes) (i n : Nat) (h : i + n ≤ item.length) : (pointerToken item i n).isSome := by
  induction n generalizing i with
  | zero => rfl
  | succ n ih =>
    unfold pointerToken
    obtain ⟨c, hc, _⟩ := byteAt_some (s := item) (i := i) (by omega)
    simp only [hc, Option.bind_eq_bind, Option.bind_some]
    split
    · split
      · rfl
      · obtain ⟨d, hd, _⟩ := byteAt_some (s := item) (i := i + 1) (by omega)
        simp only [hd, Option.bind_some]
        split
        · exact ih (i + 1) (by omega)
        · rfl
    · exact ih (i + 1) (by omega)

theorem pointerTokens_total (l : List Bytes) : (pointerTokens l).isSome := by
  induction l with
  | nil => rfl
  | cons x t ih =>
    unfold pointerTokens
    obtain ⟨b, h⟩ := some_of_isSome (pointerToken_total x 0 x.length (by omega))
    simp only [h, Option.bind_eq_bind, Option.bind_some]
    split
    · exact ih
    · rfl

theorem isJSONPointerB_total (s : Bytes) : (isJSONPointerB s).isSome := by
  unfold isJSONPointerB
  split
  · rfl
  · exact pointerTokens_total _

theorem isRelativeJSONPointerB_total (s : Bytes) : (isRelativeJSONPointerB s).isSome := by
  unfold isRelativeJSONPointerB
  split
  · rfl
  · split
    · split
      · rfl
      · exact isJSONPointerB_total _
    · split
      · dsimp only
        split
        · rfl
        · exact isJSONPointerB_total _
      · rfl

theorem formatCheckB_total (L : FormatLib) (format : String) (f : Bytes → Option Bool)
    (h : formatCheckB L format = some f) (s : Bytes) : (f s).isSome := by
  have hu := some_of_isSome (urlParseB_total L s)
  unfold formatCheckB at h
  split at h <;> cases h <;> first
    | exact isDateTimeB_total L s
    | exact isTimeB_total s
    | exact isDurationB_total s
    | exact isPeriodB_total L s
    | exact isHostnameB_total s
    | exact isEmailB_total L s
    | exact isIPV4B_total s
    | exact isIPV6B_total L s
    | exact isJSONPointerB_total s
    | exact isRelativeJSONPointerB_total s
    | rfl
    | (obtain ⟨u, hu⟩ := hu
       simp only [isURIB, isURIReferenceB, isURITemplateB, hu, Option.bind_eq_bind, Option.bind_some]
       cases u <;> rfl)

end Chaff
