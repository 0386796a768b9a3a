import Verif.Stay
import Verif.Ghost
import Verif.Keeps
import Verif.Reach
import Verif.RealProps
import Verif.PlayProps
import Verif.RouterProps
import Verif.BoostProps

/-! # A qubit stays where it is: from the attempts to the pipelines (lemmas) -/

namespace Verif.Real

open Verif Apply DSlice Verif.Wave Verif.Pipe Verif.Slices.Spec

section
variable {ρ : Type} {I : ρ → Prop} {ctx : Ctx ρ} {realloc : Nat → Bool} {c : Cell} {q R K : Nat} {P : List Instr}

/-- An instruction that takes the patch off its cell: it is measured, rotated, or given back as a `Y` state. -/
def Takes (q : Nat) (i : Instr) : Prop :=
  match i.op with
  | .measure t _ _ => t = q
  | .rotate t => t = q
  | .ystate t _ _ => t = q
  | _ => False

instance (q : Nat) (i : Instr) : Decidable (Takes q i) := by
  unfold Takes
  split <;> infer_instance

theorem sound_plain {i : Instr} (h : Plain i) : Takes q i ∨ Sound false c q i := by
  rcases i with ⟨op, w, cl⟩
  cases op with
  | measure t _ _ => exact Classical.em _
  | rotate t => exact (Classical.em (t = q)).imp id .inr
  | ystate t _ _ => exact Classical.em _
  | bell b => exact .inr (by intro ls e; simp only [Plain] at h; rw [h.2] at e; cases e)
  | bellCnot b =>
    simp only [Plain] at h
    refine .inr ⟨?_, fun _ => h.2.2.2, ?_⟩
    · intro ls e; rw [h.2.2.1] at e; cases e
    · intro ls e; rw [h.1] at e; cases e
  | busy _ _ _ => exact h.elim
  | _ => exact .inr trivial

/-- An attempt to take the patch away is shown, or nothing has happened. -/
theorem taken {m : Mach ρ} {i : Instr} {r : Res (Mach ρ)} (ht : Takes q i) (h : Apply.apply ctx m i = .ok r) :
    (r.err = false ∧ Takes q r.instr) ∨ (r.err = true ∧ r.slice = m ∧ r.instr = i) := by
  have hfail : ∀ {m' : Mach ρ} {j : Instr}, fail m' j = .ok r → r.err = true ∧ r.slice = m' ∧ r.instr = j := by
    intro m' j h; cases h; exact ⟨rfl, rfl, rfl⟩
  have hsucc : ∀ {m' : Mach ρ} {j : Instr}, success m' j = .ok r → r.err = false ∧ r.instr = j := by
    intro m' j h; cases h; exact ⟨rfl, rfl⟩
  unfold Takes at ht
  unfold Apply.apply at h
  split at h
  · rename_i e
    unfold applyMeasure at h
    split at h
    · exact .inr (hfail h)
    · obtain ⟨h1, h2⟩ := hsucc h
      exact .inl ⟨h1, by rw [h2]; exact ht⟩
  all_goals (try (rename_i e; rw [e] at ht; exact ht.elim))
  · rename_i e
    rcases applyRotate_ok h with rfl | ⟨x, p, n, reg, y, -, -, -, -, -, rfl⟩
    · exact .inr ⟨rfl, rfl, rfl⟩
    · exact .inl ⟨rfl, ht⟩
  · rename_i t near lo e
    rw [e] at ht
    unfold applyY at h
    split at h
    · obtain ⟨h1, h2⟩ := hsucc h
      exact .inl ⟨h1, by rw [h2]; unfold Takes; rw [e]; exact ht⟩
    · split at h
      · unfold yPredistilled at h
        obtain ⟨cs, -, h⟩ := Outcome.bind_eq_ok.1 h
        split at h
        · exact .inr (hfail h)
        · split at h
          · cases h
          · split at h
            · exact .inr (hfail h)
            · obtain ⟨h1, h2⟩ := hsucc h
              exact .inl ⟨h1, by rw [h2]; unfold Takes; rw [e]; exact ht⟩
      · split at h
        · unfold yTwist at h
          split at h
          · cases h
          · obtain ⟨o, -, h⟩ := Outcome.bind_eq_ok.1 h
            split at h
            · exact .inr (hfail h)
            · obtain ⟨x, -, h⟩ := Outcome.bind_eq_ok.1 h
              obtain ⟨h1, h2⟩ := hsucc h
              exact .inl ⟨h1, by rw [h2]; exact ht⟩
        · exact .inr (hfail h)

/-- No routing mark has an id. As long as nothing shown has taken the patch away, it is there. -/
def Staying (I : ρ → Prop) (c : Cell) (q R K : Nat) (x : Mach ρ × List Instr) : Prop :=
  Marks x.1.slice ∧ ((∀ i ∈ x.2, ¬ Takes q i) → MSafe I false c q R K x.1)

/-- As long as nothing shown has taken the patch away, the instruction will not touch it except by taking it away. -/
def Sparing (c : Cell) (q : Nat) (x : Mach ρ × List Instr) (i : Instr) : Prop :=
  Quiet i ∧ ((∀ i ∈ x.2, ¬ Takes q i) → Takes q i ∨ Sound false c q i)

theorem staying_keeps (hR : Avoids ctx.localInstrs ctx.router I false c q R K) : Keeps (ghost (env ctx realloc)) (Staying I c q R K) (Sparing c q) where
  apply := by
    intro s i r h hi hr
    obtain ⟨r0, h1, rfl⟩ := ghost_apply hr
    have h2 : Apply.apply ctx s.1 i = .ok r0 := h1
    have hk := marks_apply h.1 hi.1 h2
    have hsub : ∀ {L : List Instr}, (∀ j ∈ (if r0.err then s.2 else s.2 ++ [r0.instr]), j ∈ L) → (∀ j ∈ L, ¬ Takes q j) → ∀ j ∈ s.2, ¬ Takes q j := by
      intro L hL hn j hj
      refine hn j (hL j ?_)
      split
      · exact hj
      · exact List.mem_append_left _ hj
    have key : (∀ j ∈ (if r0.err then s.2 else s.2 ++ [r0.instr]), ¬ Takes q j) →
        MSafe I false c q R K r0.slice ∧ (Takes q r0.instr ∨ Sound false c q r0.instr) ∧ ∀ f ∈ r0.followups, Takes q f ∨ Sound false c q f := by
      intro hn
      have hn0 := hsub (fun _ h => h) hn
      have g1 := h.2 hn0
      by_cases ht : Takes q i
      · rcases taken ht h2 with ⟨k1, k2⟩ | ⟨k1, k2, k3⟩
        · refine absurd k2 (hn _ ?_)
          simp [k1]
        · refine ⟨by rw [k2]; exact g1, .inl (by rw [k3]; exact ht), ?_⟩
          intro f hf
          rcases fails_alone ctx realloc _ _ _ h1 k1 with e | e
          · rw [e] at hf; cases hf
          · rw [e] at hf
            rw [List.mem_singleton.1 hf, k3]
            exact .inl ht
      · have hs := spared_apply hR g1 h.1 ((hi.2 hn0).resolve_left ht) h2
        exact ⟨hs.safe, .inr hs.instr, fun f hf => .inr (hs.followups f hf)⟩
    refine ⟨⟨hk.slice, fun hn => (key hn).1⟩, ⟨hk.instr, fun hn => (key hn).2.1⟩, fun f hf => ⟨hk.followups f hf, fun hn => (key hn).2.2 f hf⟩, ?_⟩
    intro j hj
    exact ⟨hj.1, fun hn => hj.2 (hsub (fun _ h => h) hn)⟩
  waits _ h := h
  advance := by
    rintro s s' ⟨m1, h⟩ ha
    unfold ghost at ha
    dsimp only at ha
    obtain ⟨t, h1, ha⟩ := Outcome.bind_eq_ok.1 ha
    cases ha
    change Apply.step ctx s.1 = .ok t at h1
    unfold Apply.step at h1
    obtain ⟨u, h2, h1⟩ := Outcome.bind_eq_ok.1 h1
    cases h1
    refine ⟨⟨marks_advance m1 h2, fun hn => ?_⟩, fun j hj => hj⟩
    exact ⟨safe_advance (by simp) (h hn).slice h2, (h hn).router⟩
  reset := by
    rintro s s' ⟨m1, h⟩ ha
    unfold ghost at ha
    dsimp only at ha
    obtain ⟨t, h1, ha⟩ := Outcome.bind_eq_ok.1 ha
    cases ha
    unfold env at h1
    dsimp only at h1
    obtain ⟨u, h2, h1⟩ := Outcome.bind_eq_ok.1 h1
    cases h1
    refine ⟨⟨m1.same (DSlice.resetMarked_same h2), fun hn => ?_⟩, fun j hj => hj⟩
    exact ⟨(h hn).slice.same (DSlice.resetMarked_same h2), (h hn).router⟩

theorem quiet_plain {i : Instr} (h : Plain i) : Quiet i := by
  rcases i with ⟨op, w, cl⟩
  cases op with
  | busy _ _ _ => exact h.elim
  | _ => trivial

theorem sparing_plain {x : Mach ρ × List Instr} {i : Instr} (h : Plain i) : Sparing c q x i := ⟨quiet_plain h, fun _ => sound_plain h⟩

end

/-! ### The richer environment behaves the same -/

section
variable {σ : Type} {e : Env σ}

theorem ghost_one (h : OneFollowup e) : OneFollowup (ghost e) := by
  intro s i r hr
  obtain ⟨r0, h1, rfl⟩ := ghost_apply hr
  exact h _ _ _ h1

theorem ghost_alone (h : FailsAlone e) : FailsAlone (ghost e) := by
  intro s i r hr he
  obtain ⟨r0, h1, rfl⟩ := ghost_apply hr
  exact h _ _ _ h1 he

open Verif.Pipe.Spec (Play instrs slices)

theorem instrs_obs {τ : Type} (f : τ → σ) (L : List (Obs τ)) : instrs (L.map (mapObs f)) = instrs L := by
  induction L with
  | nil => rfl
  | cons o L ih => cases o <;> simp [instrs, mapObs] at * <;> exact ih

/-- Each slice of the account carries the instructions shown before it. -/
def Carries (L : List (Obs (σ × List Instr))) : Prop := ∀ (j : Nat) x, L[j]? = some (Obs.slice x) → x.2 = instrs (L.take j)

theorem carries_append {L : List (Obs (σ × List Instr))} {o : Obs (σ × List Instr)} (h : Carries L) (ho : ∀ x, o = .slice x → x.2 = instrs L) : Carries (L ++ [o]) := by
  intro j x hx
  by_cases hj : j < L.length
  · rw [List.getElem?_append_left hj] at hx
    rw [List.take_append_of_le_length (by omega)]
    exact h j x hx
  · rw [List.getElem?_append_right (by omega)] at hx
    have : j = L.length := by
      rcases Nat.lt_or_ge j (L.length + 1) with h | h
      · omega
      · rw [List.getElem?_eq_none (by simp; omega)] at hx; cases hx
    subst this
    simp only [Nat.sub_self, List.getElem?_cons_zero, Option.some.injEq] at hx
    rw [List.take_left]
    exact ho x hx

theorem play_carries {resets : Bool} {s : σ} {L : List (Obs (σ × List Instr))} {t : σ × List Instr} (h : Play (ghost e) resets (s, []) L t) : Carries L ∧ t.2 = instrs L := by
  induction h with
  | start => exact ⟨by intro j x hx; simp at hx, rfl⟩
  | done _ ha he ih =>
    obtain ⟨r0, h1, rfl⟩ := ghost_apply ha
    refine ⟨carries_append ih.1 (by intro x e; cases e), ?_⟩
    dsimp only at he ⊢
    rw [Pipe.Spec.instrs_append, he, ih.2]
    rfl
  | refused _ ha he ih =>
    obtain ⟨r0, h1, rfl⟩ := ghost_apply ha
    refine ⟨ih.1, ?_⟩
    dsimp only at he ⊢
    rw [he, ih.2]
    rfl
  | reset _ hd ha ih =>
    unfold ghost at ha
    dsimp only at ha
    obtain ⟨t, -, ha⟩ := Outcome.bind_eq_ok.1 ha
    cases ha
    exact ih
  | next _ ha ih =>
    unfold ghost at ha
    dsimp only at ha
    obtain ⟨t, -, ha⟩ := Outcome.bind_eq_ok.1 ha
    cases ha
    refine ⟨carries_append ih.1 (by intro x e; cases e; exact ih.2), ?_⟩
    rw [Pipe.Spec.instrs_append]
    exact ih.2.trans (List.append_nil _).symm

theorem mem_slices {τ : Type} {L : List (Obs τ)} {x : τ} : Obs.slice x ∈ L → x ∈ slices L := by
  intro h
  exact List.mem_filterMap.2 ⟨_, h, rfl⟩

/-- What is known of the slices of a richer account, said of the account. -/
theorem account_lift {Φ : σ × List Instr → Prop} {L : List (Obs (σ × List Instr))} (hc : Carries L) (hΦ : ∀ x, Obs.slice x ∈ L → Φ x)
    {A B : List (Obs σ)} {m : σ} (h : L.map (mapObs Prod.fst) = A ++ .slice m :: B) : Φ (m, instrs A) := by
  have hA : (L.map (mapObs Prod.fst)).take A.length = A := by rw [h, List.take_left]
  have hm : (L.map (mapObs Prod.fst))[A.length]? = some (.slice m) := by rw [h]; simp
  rw [List.getElem?_map] at hm
  obtain ⟨o, ho, e⟩ := Option.map_eq_some_iff.1 hm
  cases o with
  | instr i => cases e
  | slice x =>
    simp only [mapObs, Obs.slice.injEq] at e
    have h2 := hc A.length x ho
    have hw := hΦ x (List.mem_of_getElem? ho)
    have e2 : instrs (L.take A.length) = instrs A := by
      rw [← instrs_obs Prod.fst, List.map_take, hA]
    obtain ⟨x1, x2⟩ := x
    simp only at e h2
    rw [← e, ← e2, ← h2]
    exact hw

end

end Verif.Real

namespace Verif.Apply

open DSlice

theorem init_size {L : Layout} {ids : List Nat} {s : DSlice} (h : DSlice.init L ids = .ok s) : (s.rows, s.cols) = ((L.furthest.row + 1).toNat, (L.furthest.col + 1).toNat) := by
  have hcore : ∀ (ps : List SparsePatch) (is : List Nat) (a b : DSlice), placeCore ps is a = .ok b → (b.rows, b.cols) = (a.rows, a.cols) := by
    intro ps
    induction ps with
    | nil => intro is a b h; rw [placeCore] at h <;> first | (cases h; rfl) | simp
    | cons p ps ih =>
      intro is a b h
      cases is with
      | nil => rw [placeCore] at h <;> first | (cases h; rfl) | simp
      | cons i is =>
        rw [placeCore] at h
        obtain ⟨r, h1, h⟩ := Outcome.bind_eq_ok.1 h
        obtain ⟨o, ho⟩ := placeSingle_single h1
        obtain ⟨-, -, rfl⟩ := placeSingle_ok ho h1
        rw [ih _ _ _ h]; rfl
  have hy : ∀ (cs : List Cell) (a b : DSlice), placeY cs a = .ok b → (b.rows, b.cols) = (a.rows, a.cols) := by
    intro cs
    induction cs with
    | nil => intro a b h; cases h; rfl
    | cons c cs ih =>
      intro a b h
      rw [placeY] at h
      obtain ⟨r, h1, h⟩ := Outcome.bind_eq_ok.1 h
      obtain ⟨-, -, rfl⟩ := placeSingle_ok rfl h1
      rw [ih _ _ h]; rfl
  have ha : ∀ (cs : List (Cell × DensePatch)) (a b : DSlice), assignAll cs a = .ok b → (b.rows, b.cols) = (a.rows, a.cols) := by
    intro cs
    induction cs with
    | nil => intro a b h; cases h; rfl
    | cons c cs ih =>
      intro a b h
      rw [assignAll] at h
      obtain ⟨r, h1, h⟩ := Outcome.bind_eq_ok.1 h
      unfold assign at h1
      split at h1
      · cases h1; rw [ih _ _ h]; rfl
      · cases h1
  unfold DSlice.init at h
  split at h
  · cases h
  · obtain ⟨s1, h1, h⟩ := Outcome.bind_eq_ok.1 h
    obtain ⟨s2, h2, h⟩ := Outcome.bind_eq_ok.1 h
    obtain ⟨s3, h3, h⟩ := Outcome.bind_eq_ok.1 h
    obtain ⟨s4, h4, h⟩ := Outcome.bind_eq_ok.1 h
    rw [ha _ _ _ h]
    show (s4.rows, s4.cols) = _
    rw [ha _ _ _ h4, ha _ _ _ h3, hy _ _ _ h2, hcore _ _ _ _ h1]
    rfl

/-- The first slice is as large as the layout says. -/
theorem init_fits {L : Layout} {ids : List Nat} {s : DSlice} (hids : ids.Nodup) (h : DSlice.init L ids = .ok s) {c : Cell} {p : DensePatch} (hc : s.cells c = some p) : Router.Spec.Fits L s := by
  have hr : s.inRange c = true := by
    cases hr : s.inRange c with
    | false => rw [(init_inv hids h).inside c hr] at hc; cases hc
    | true => rfl
  have e := init_size h
  simp only [Prod.mk.injEq] at e
  simp only [DSlice.inRange, Bool.and_eq_true, decide_eq_true_eq] at hr
  refine ⟨?_, ?_, ?_, ?_⟩ <;> omega

section
variable {L : Layout} {pick : Search.Pick} {stop : Bool} {ro : Bool} {c : Cell} {q R K : Nat}

theorem safe_fits {s s0 : DSlice} (h0 : Router.Spec.Fits L s0) (h : Safe ro c q s0.rows s0.cols s) : Router.Spec.Fits L s := by
  obtain ⟨h1, h2, h3, h4⟩ := h0
  exact ⟨h1, h2, by rw [h.rows]; exact h3, by rw [h.cols]; exact h4⟩

theorem find_avoids {s s0 : DSlice} (h0 : Router.Spec.Fits L s0) (hs : Safe ro c q s0.rows s0.cols s) (hm : Marks s) {edpc : Bool} {a b : Nat} {pa pb : Pauli} {r : RoutingRegion}
    (h : Router.find L pick stop edpc s a pa b pb = .ok (some r)) : ∀ x ∈ r.cells, c ≠ x.cell := by
  have he : Router.Spec.RealEnds edpc s a b := by
    rintro - y p hp hid ha
    rw [hm.get hp ha] at hid
    rcases hid with e | e <;> cases e
  obtain ⟨u, v, -, -, hadm, -⟩ := Router.Spec.c33_route (safe_fits h0 hs) he h
  rintro x hx rfl
  obtain ⟨p, h1, -⟩ := hs.get
  have h2 := hs.active h1
  rcases hadm.clear x.cell (List.mem_map.2 ⟨x, hx, rfl⟩) with e | ⟨-, p', e, ha⟩
  · rw [h1] at e; cases e
  · rw [h1] at e; cases e
    rw [ha] at h2
    rcases h2 with e | e | e <;> cases e

theorem dp_avoids {s0 : DSlice} (h0 : Router.Spec.Fits L s0) (edpc loc : Bool) : Avoids loc (Router.dpRouter L pick stop edpc) (fun _ => True) ro c q s0.rows s0.cols where
  find := by
    intro rs s a pa b pb o rs' _ hs hm h
    unfold Router.dpRouter at h
    dsimp only at h
    obtain ⟨r, h1, h⟩ := Outcome.bind_eq_ok.1 h
    cases h
    refine ⟨trivial, fun _ => ?_⟩
    rintro reg rfl
    exact .inl (find_avoids h0 hs hm h1)

theorem hop_short {s : DSlice} {a b : Cell} {pa pb : Pauli} : ∀ {l : List Cell}, Boost.Spec.Hop L s a pa b pb l → l.length ≤ 2
  | [], _ => by simp
  | [_], _ => by simp
  | [_, _], _ => by simp
  | _ :: _ :: _ :: _, h => by simp [Boost.Spec.Hop] at h

theorem boost_avoids {s0 : DSlice} (h0 : Router.Spec.Fits L s0) (pick : Boost.Pick) (loc : Bool) : Avoids loc (Boost.boostRouter L pick) (fun _ => True) ro c q s0.rows s0.cols where
  find := by
    intro rs s a pa b pb o rs' _ hs hm h
    unfold Boost.boostRouter at h
    dsimp only at h
    obtain ⟨r, h1, h⟩ := Outcome.bind_eq_ok.1 h
    cases h
    refine ⟨trivial, fun _ => ?_⟩
    rintro reg rfl
    obtain ⟨u, v, -, -, hh, -⟩ := Boost.Spec.c58_route_partial (safe_fits h0 hs) h1
    refine .inr ⟨rfl, ?_⟩
    simpa using hop_short hh

theorem cached_avoids {s0 : DSlice} (h0 : Router.Spec.Fits L s0) (loc : Bool) :
    Avoids loc (Router.cachedRouter L pick stop) (fun cache => ∀ k reg, cache k = some reg → ∀ x ∈ reg.cells, c ≠ x.cell) ro c q s0.rows s0.cols where
  find := by
    intro rs s a pa b pb o rs' hI hs hm h
    unfold Router.cachedRouter at h
    dsimp only at h
    unfold Router.cachedFind at h
    split at h
    · split at h
      · rename_i r hr
        cases h
        refine ⟨hI, fun _ => ?_⟩
        rintro reg e
        cases e
        exact .inl (hI _ _ hr)
      · obtain ⟨r, h1, h⟩ := Outcome.bind_eq_ok.1 h
        cases r with
        | none => cases h; exact ⟨hI, by simp⟩
        | some r =>
          cases h
          have hr := find_avoids h0 hs hm h1
          refine ⟨?_, fun _ => by rintro reg e; cases e; exact .inl hr⟩
          intro k reg hk
          unfold upd at hk
          split at hk
          · cases hk; exact hr
          · exact hI k reg hk
    · cases h

theorem stored_avoids {s0 : DSlice} (h0 : Router.Spec.Fits L s0) (pick : Boost.Pick) (loc : Bool) :
    Avoids loc (Boost.storedRouter L pick) (fun cache => ∀ k reg, cache k = some reg → reg.cells.length ≤ 2) ro c q s0.rows s0.cols where
  find := by
    intro rs s a pa b pb o rs' hI hs hm h
    unfold Boost.storedRouter at h
    dsimp only at h
    unfold Boost.storedFind at h
    split at h
    · split at h
      · rename_i r hr
        cases h
        refine ⟨hI, fun _ => ?_⟩
        rintro reg e
        cases e
        exact .inr ⟨rfl, hI _ _ hr⟩
      · obtain ⟨r, h1, h⟩ := Outcome.bind_eq_ok.1 h
        cases r with
        | none => cases h; exact ⟨hI, by simp⟩
        | some r =>
          cases h
          obtain ⟨u, v, -, -, hh, -⟩ := Boost.Spec.c58_route_partial (safe_fits h0 hs) h1
          have hr : r.cells.length ≤ 2 := by simpa using hop_short hh
          refine ⟨?_, fun _ => by rintro reg e; cases e; exact .inr ⟨rfl, hr⟩⟩
          intro k reg hk
          unfold upd at hk
          split at hk
          · cases hk; exact hr
          · exact hI k reg hk
    · cases h

end

end Verif.Apply
