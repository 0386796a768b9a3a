import Verif.Lli
import Verif.LstkProps

namespace Verif.Lli

/-! ## Decimal numbers -/

theorem digitChar_toNat {n : Nat} (h : n < 10) : (digitChar n).toNat = 48 + n := by
  match n, h with
  | 0, _ | 1, _ | 2, _ | 3, _ | 4, _ | 5, _ | 6, _ | 7, _ | 8, _ | 9, _ => rfl

theorem isDigit_digitChar {n : Nat} (h : n < 10) : isDigit (digitChar n) = true := by
  unfold isDigit; rw [digitChar_toNat h]; simp; omega

theorem digitsAux_digits (f n : Nat) : ∀ c ∈ digitsAux f n, isDigit c = true := by
  induction f generalizing n with
  | zero => simp [digitsAux]
  | succ f ih =>
    unfold digitsAux
    split
    · rename_i h; intro c hc; simp at hc; subst hc; exact isDigit_digitChar h
    · intro c hc; simp at hc
      rcases hc with hc | rfl
      · exact ih _ c hc
      · exact isDigit_digitChar (Nat.mod_lt _ (by omega))

theorem digitsAux_ne_nil (f n : Nat) : digitsAux (f + 1) n ≠ [] := by
  unfold digitsAux; split <;> simp

theorem showNat_digits (n : Nat) : ∀ c ∈ showNat n, isDigit c = true := digitsAux_digits _ _
theorem showNat_ne_nil (n : Nat) : showNat n ≠ [] := digitsAux_ne_nil _ _

theorem readDigits_append (acc : Nat) (s t : Str) (h : ∀ c ∈ s, isDigit c = true) :
    readDigits acc (s ++ t) = readDigits (readDigits acc s) t := by
  induction s generalizing acc with
  | nil => rfl
  | cons c s ih =>
    simp only [List.cons_append, readDigits, h c (by simp), if_true]
    exact ih _ (fun c hc => h c (by simp [hc]))

theorem readDigits_digitsAux (f n : Nat) (h : n < f) : readDigits 0 (digitsAux f n) = n := by
  induction f generalizing n with
  | zero => omega
  | succ f ih =>
    unfold digitsAux
    split
    · rename_i hn
      simp only [readDigits, isDigit_digitChar hn, if_true, digitChar_toNat hn]; omega
    · rename_i hn
      rw [readDigits_append _ _ _ (digitsAux_digits _ _), ih (n / 10) (by omega)]
      have hm : n % 10 < 10 := Nat.mod_lt _ (by omega)
      simp only [readDigits, isDigit_digitChar hm, if_true, digitChar_toNat hm]; omega

theorem readDigits_showNat (n : Nat) : readDigits 0 (showNat n) = n := readDigits_digitsAux _ _ (by omega)

theorem notDigit_mem {n : Nat} {c : Char} (h : isDigit c = false) : c ∉ showNat n := by
  intro hc; rw [showNat_digits n c hc] at h; simp at h

theorem space_showNat (n : Nat) : ' ' ∉ showNat n := notDigit_mem (by decide)
theorem comma_showNat (n : Nat) : ',' ∉ showNat n := notDigit_mem (by decide)
theorem colon_showNat (n : Nat) : ':' ∉ showNat n := notDigit_mem (by decide)

/-- Value read from text starting with a digit. -/
theorem fromCharsInt_digit (c : Char) (cs : Str) (h : isDigit c = true) :
    fromCharsInt (c :: cs) = if readDigits 0 (c :: cs) < 2 ^ 31 then .ok (readDigits 0 (c :: cs) : Int) else .throws := by
  have hc : c ≠ '-' := by rintro rfl; simp [isDigit] at h
  unfold fromCharsInt
  split
  rename_i neg ds heq
  split at heq
  · rename_i t h'; simp at h'; exact absurd h'.1 hc
  · cases heq; simp only [h, if_true]; simp

theorem parsePatchId_showNat (n : Nat) : parsePatchId (showNat n) = if n < 2 ^ 31 then .ok n else .throws := by
  unfold parsePatchId
  have hne := showNat_ne_nil n
  have hd := showNat_digits n
  have hr := readDigits_showNat n
  cases hs : showNat n with
  | nil => exact absurd hs hne
  | cons c cs =>
    rw [hs] at hd hr
    rw [fromCharsInt_digit c cs (hd c (by simp)), hr]
    by_cases h : n < 2 ^ 31
    · simp only [h, if_true, Outcome.bind_ok, Outcome.ok.injEq]; omega
    · simp only [h, if_false, Outcome.bind_throws]

theorem pauliOf_pauliStr (p : Pauli) : pauliOf (pauliStr p) = .ok p := by cases p <;> decide
theorem pauliStr_free (p : Pauli) (c : Char) (h : c ≠ 'I' ∧ c ≠ 'X' ∧ c ≠ 'Y' ∧ c ≠ 'Z') : c ∉ pauliStr p := by
  cases p <;> simp [pauliStr, h]

theorem stateStr_free (s : InitState) : ' ' ∉ stateStr s := by cases s <;> decide
theorem parseState_stateStr (s : InitState) : parseState (stateStr s) = .ok s := by cases s <;> decide

/-! ## Splitting of printed lines -/

theorem splitOn_cons {s : Str} {d : Char} (h : s ≠ []) : splitOn s d = pieces d s := by
  rw [splitOn_eq_pieces, if_neg h]

theorem pieces_sep {d : Char} {p : Str} (h : d ∉ p) (t : Str) : pieces d (p ++ d :: t) = p :: pieces d t :=
  pieces_append_sep h t

theorem nextStr_space (n : NextTo) : ' ' ∉ nextStr n := by
  unfold nextStr; simp only [List.mem_append, List.mem_cons, not_or]
  exact ⟨space_showNat _, by decide, pauliStr_free _ _ (by decide)⟩

theorem nextStr_comma (n : NextTo) : ',' ∉ nextStr n := by
  unfold nextStr; simp only [List.mem_append, List.mem_cons, not_or]
  exact ⟨comma_showNat _, by decide, pauliStr_free _ _ (by decide)⟩

theorem nextStr_split (n : NextTo) : splitOn (nextStr n) ':' = [showNat n.target, pauliStr n.op] := by
  unfold nextStr
  rw [splitOn_cons (by simp), pieces_sep (colon_showNat _), pieces_of_free (pauliStr_free _ _ (by decide))]

theorem obsEntry_eq (e : Nat × Pauli) : obsEntry e = nextStr ⟨e.1, e.2⟩ := rfl

theorem joinStr_eq (xs : List Str) (d : Char) : joinStr xs [d] = List.intercalate [d] xs := by
  cases xs with
  | nil => rfl
  | cons x xs =>
    unfold joinStr
    have : ∀ (xs : List Str) (x : Str), xs.foldl (fun acc v => acc ++ [d] ++ v) x = List.intercalate [d] (x :: xs) := by
      intro xs
      induction xs with
      | nil => intro x; simp [List.intercalate]
      | cons y ys ih =>
        intro x
        rw [List.foldl_cons, ih]
        cases ys <;> simp [List.intercalate]
    exact this xs x

theorem intercalate_free {d c : Char} {xs : List Str} (hd : c ≠ d) (h : ∀ x ∈ xs, c ∉ x) : c ∉ List.intercalate [d] xs := by
  induction xs with
  | nil => simp [List.intercalate]
  | cons x xs ih =>
    cases xs with
    | nil => simpa [List.intercalate] using h x (by simp)
    | cons y ys =>
      have hi : List.intercalate [d] (x :: y :: ys) = x ++ d :: List.intercalate [d] (y :: ys) := by
        simp [List.intercalate]
      rw [hi]; simp only [List.mem_append, List.mem_cons, not_or]
      exact ⟨h x (by simp), hd, ih (fun z hz => h z (by simp [hz]))⟩

theorem obsJoin_space (obs : List (Nat × Pauli)) : ' ' ∉ joinStr (obs.map obsEntry) [','] := by
  rw [joinStr_eq]
  refine intercalate_free (by decide) ?_
  intro x hx
  obtain ⟨e, _, rfl⟩ := List.mem_map.1 hx
  rw [obsEntry_eq]; exact nextStr_space _

theorem obsJoin_split (obs : List (Nat × Pauli)) (h : obs ≠ []) :
    splitOn (joinStr (obs.map obsEntry) [',']) ',' = obs.map obsEntry := by
  have hne : obs.map obsEntry ≠ [] := by simp [h]
  have hfree : ∀ p ∈ obs.map obsEntry, ',' ∉ p := by
    intro x hx
    obtain ⟨e, _, rfl⟩ := List.mem_map.1 hx
    rw [obsEntry_eq]; exact nextStr_comma _
  rw [joinStr_eq, splitOn_cons, pieces_intercalate hne hfree]
  intro hc
  cases obs with
  | nil => exact h rfl
  | cons e obs =>
    have : obsEntry e = [] := by
      cases obs with
      | nil => simpa [List.intercalate] using hc
      | cons f obs =>
        have hi : List.intercalate [','] (obsEntry e :: obsEntry f :: obs.map obsEntry) =
            obsEntry e ++ ',' :: List.intercalate [','] (obsEntry f :: obs.map obsEntry) := by simp [List.intercalate]
        simp only [List.map_cons] at hc
        rw [hi] at hc; simp at hc
    simp [obsEntry] at this

/-! ## Reading dictionaries -/

def keys (m : List (Nat × Pauli)) : List Nat := m.map (·.1)

theorem insertOrAssign_new {m : List (Nat × Pauli)} {k : Nat} {v : Pauli} (h : k ∉ keys m) :
    insertOrAssign m k v = m ++ [(k, v)] := by
  unfold insertOrAssign
  rw [if_neg]
  intro hc
  rw [List.any_eq_true] at hc
  obtain ⟨e, he, hk⟩ := hc
  simp at hk
  exact h (List.mem_map.2 ⟨e, he, hk⟩)

theorem nodup_insertOrAssign {m : List (Nat × Pauli)} (k : Nat) (v : Pauli) (h : (keys m).Nodup) :
    (keys (insertOrAssign m k v)).Nodup := by
  by_cases hk : k ∈ keys m
  · unfold insertOrAssign
    rw [if_pos]
    · have : keys (m.map (fun e => if e.1 = k then (k, v) else e)) = keys m := by
        unfold keys; rw [List.map_map]; apply List.map_congr_left
        intro e _; simp only [Function.comp]; split <;> simp_all
      rw [this]; exact h
    · obtain ⟨e, he, hek⟩ := List.mem_map.1 hk
      rw [List.any_eq_true]; exact ⟨e, he, by simp [hek]⟩
  · rw [insertOrAssign_new hk]
    unfold keys at *
    rw [List.map_append, List.nodup_append]
    refine ⟨h, by simp, ?_⟩
    intro a ha b hb e
    simp at hb; subst hb; subst e; exact hk ha

theorem parseDictLoop_nodup {ps : List Str} {m m' : List (Nat × Pauli)} (h : (keys m).Nodup)
    (hp : parseDictLoop ps m = .ok m') : (keys m').Nodup := by
  induction ps generalizing m with
  | nil => cases hp; exact h
  | cons p ps ih =>
    unfold parseDictLoop at hp
    split at hp
    · simp only [Outcome.bind_eq_ok] at hp
      obtain ⟨k, _, v, _, h3⟩ := hp
      exact ih (nodup_insertOrAssign k v h) h3
    · simp at hp

theorem parseDictLoop_obs (obs m : List (Nat × Pauli)) (hd : (keys (m ++ obs)).Nodup) :
    parseDictLoop (obs.map obsEntry) m = if ∀ e ∈ obs, e.1 < 2 ^ 31 then .ok (m ++ obs) else .throws := by
  induction obs generalizing m with
  | nil => simp [parseDictLoop]
  | cons e obs ih =>
    rw [List.map_cons, parseDictLoop, obsEntry_eq, nextStr_split]
    simp only
    rw [parsePatchId_showNat]
    by_cases he : e.1 < 2 ^ 31
    · simp only [he, if_true, Outcome.bind_ok, pauliOf_pauliStr]
      have hk : e.1 ∉ keys m := by
        intro hc
        unfold keys at hd hc
        rw [List.map_append, List.nodup_append] at hd
        exact hd.2.2 _ hc e.1 (by simp) rfl
      rw [insertOrAssign_new hk, ih _ (by simpa using hd)]
      have : (∀ x ∈ e :: obs, x.1 < 2 ^ 31) ↔ ∀ x ∈ obs, x.1 < 2 ^ 31 := by
        simp [he]
      simp only [this, List.append_assoc, List.singleton_append]
    · simp only [he, if_false, Outcome.bind_throws]
      rw [if_neg]
      intro hc; exact he (hc e (by simp))

end Verif.Lli
