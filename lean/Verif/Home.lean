import Verif.StayRun

/-! # A patch is nowhere but on its cell: lemmas -/

namespace Verif

open Apply

namespace DSlice

/-- The patch `q` is on no cell but `c`. -/
def Sole (c : Cell) (q : Nat) (s : DSlice) : Prop := ∀ x, s.idAt x = some q → x = c

section
variable {c : Cell} {q : Nat} {s s' : DSlice}

theorem Sole.of (h : Sole c q s) (hs : ∀ x, s'.idAt x = some q → s.idAt x = some q) : Sole c q s' := fun x hx => h x (hs x hx)

theorem Sole.grow (h : Sole c q s) (hs : ∀ x n, s'.idAt x = some n → s.idAt x = some n) : Sole c q s' := h.of fun x => hs x q

theorem idAt_core (s : DSlice) (x : Cell) : s.idAt x = (s.core x).bind (·.id) := by
  unfold DSlice.idAt core
  cases s.cells x <;> rfl

theorem Sole.same (h : Sole c q s) (hs : SameCore s s') : Sole c q s' :=
  h.of fun x hx => by rw [idAt_core] at *; rw [← hs.core x]; exact hx

theorem Sole.filled {Y : List Cell} {act : PatchActivity} (h : Sole c q s) (hs : Filled Y act s s') : Sole c q s' := by
  refine h.of fun x hx => ?_
  rcases hs.cell x with e | ⟨-, -, -, p, e, -, -, e'⟩
  · rw [idAt_core] at *; rw [← e]; exact hx
  · unfold DSlice.idAt at hx
    rw [e] at hx
    rw [show (some p).bind (fun x => x.id) = p.id from rfl, e'] at hx; cases hx

theorem Sole.put (h : Sole c q s) {x : Cell} {p : Option DensePatch} (hp : p.bind (·.id) = some q → x = c) : Sole c q (s.put x p) := by
  intro y hy
  rw [idAt_put] at hy
  split at hy
  · rename_i e; subst e; exact hp hy
  · exact h y hy

theorem Sole.modPatch (h : Sole c q s) {x : Cell} {f : DensePatch → DensePatch} (hf : ∀ p, (f p).id = some q → p.id = some q) : Sole c q (s.modPatch x f) := by
  refine h.put fun hp => h x ?_
  unfold DSlice.idAt
  cases e : s.cells x with
  | none => rw [e] at hp; cases hp
  | some p => rw [e] at hp; exact hf p hp

theorem Sole.fields (h : Sole c q s) (h1 : s'.cells = s.cells) : Sole c q s' := h.of fun x hx => by unfold DSlice.idAt at *; rw [← h1]; exact hx

theorem Sole.place {p : SparsePatch} {b : Bool} {r : DSlice × Cell} (h : Sole c q s) (hp : s.placeSingle p b = .ok r) (hq : p.id = some q → ∀ o, p.cells = .single o → o.cell = c) :
    Sole c q r.1 := by
  obtain ⟨o, ho⟩ := placeSingle_single hp
  obtain ⟨-, rfl⟩ := placeSingle_any ho hp
  exact h.put fun e => hq e o ho

theorem Sole.vacate {x : Cell} (h : Sole c q s) (e : Bool) : Sole c q (Apply.vacate e s x) := by
  unfold Apply.vacate
  split
  · exact h.put (by intro e; cases e)
  · exact h

end

end DSlice

namespace Apply

open DSlice

section
variable {c : Cell} {q : Nat} {s s' : DSlice}

theorem sole_setActivity (h : Sole c q s) {x : Cell} {a : PatchActivity} : Sole c q (setActivity s x a) := h.modPatch fun _ h => h

theorem sole_local {e : Bool} {l : LocalInstr} {r : DSlice × Bool} (hs : Sole c q s) (hl : c ∉ destroys l) (hn : q ∉ localIds l) (h : applyLocal e s l = .ok r) : Sole c q r.1 := by
  have hno : ∀ {id : Option Nat}, q ∉ id.toList → id ≠ some q := by rintro id h rfl; exact h (by simp)
  cases l with
  | prepareY id x =>
    simp only [localIds] at hn
    simp only [applyLocal, prepareY] at h
    obtain ⟨f, h1, h⟩ := Outcome.bind_eq_ok.1 h
    split at h
    · cases h
    · obtain ⟨y, h2, h⟩ := Outcome.bind_eq_ok.1 h
      cases h
      exact (hs.place h2 fun e => absurd e (hno hn)).modPatch fun _ h => h
  | bellPrepare id1 id2 c1 c2 =>
    simp only [localIds, List.mem_append, not_or] at hn
    simp only [applyLocal, bellPrepare] at h
    obtain ⟨a1, h1, h⟩ := Outcome.bind_eq_ok.1 h
    split at h
    · cases h; exact hs
    · obtain ⟨a2, h2, h⟩ := Outcome.bind_eq_ok.1 h
      split at h
      · cases h; exact hs
      · obtain ⟨s3, h3, h⟩ := Outcome.bind_eq_ok.1 h
        cases h
        unfold bellPlace at h3
        obtain ⟨x1, g1, h3⟩ := Outcome.bind_eq_ok.1 h3
        obtain ⟨x2, g2, h3⟩ := Outcome.bind_eq_ok.1 h3
        obtain ⟨x3, g3, h3⟩ := Outcome.bind_eq_ok.1 h3
        exact (((((hs.vacate e).vacate e).place g1 fun e => absurd e (hno hn.1)).place g2 fun e => absurd e (hno hn.2)).same (activateOrFail_same g3)).same (activateOrFail_same h3)
  | bellMeasure c1 c2 =>
    simp only [applyLocal, bellMeasure] at h
    obtain ⟨a1, h1, h⟩ := Outcome.bind_eq_ok.1 h
    split at h
    · cases h; exact hs
    · obtain ⟨x1, g1, h⟩ := Outcome.bind_eq_ok.1 h
      obtain ⟨x2, g2, h⟩ := Outcome.bind_eq_ok.1 h
      cases h
      exact sole_setActivity (sole_setActivity ((hs.same (activateOrFail_same g1)).same (activateOrFail_same g2)))
  | move src dst newId =>
    simp only [localIds] at hn
    simp only [destroys, List.mem_cons, List.not_mem_nil, or_false] at hl
    simp only [applyLocal, move] at h
    obtain ⟨a1, h1, h⟩ := Outcome.bind_eq_ok.1 h
    split at h
    · cases h; exact hs
    · obtain ⟨a2, h2, h⟩ := Outcome.bind_eq_ok.1 h
      split at h
      · cases h; exact hs
      · obtain ⟨s3, h3, h⟩ := Outcome.bind_eq_ok.1 h
        cases h
        unfold movePlace at h3
        have hsv := hs.vacate (x := dst) e
        split at h3
        · cases h3
        · rename_i hp'
          obtain ⟨x1, g1, h3⟩ := Outcome.bind_eq_ok.1 h3
          obtain ⟨x2, g2, h3⟩ := Outcome.bind_eq_ok.1 h3
          obtain ⟨x3, g3, h3⟩ := Outcome.bind_eq_ok.1 h3
          cases h3
          refine (((hsv.place g1 ?_).same (activateOrFail_same g2)).same (activateOrFail_same g3)).modPatch (by intro _ h; cases h)
          intro e
          refine absurd (hsv src ?_) (fun e => hl e.symm)
          simp only [basicSquare] at e
          unfold DSlice.idAt
          rw [hp']
          cases newId with
          | none => exact e
          | some n => cases e; exact absurd rfl (hno hn)
  | twoPatchMeasure c1 c2 =>
    simp only [applyLocal, twoPatchMeasure] at h
    obtain ⟨a1, h1, h⟩ := Outcome.bind_eq_ok.1 h
    split at h
    · cases h; exact hs
    · obtain ⟨x1, g1, h⟩ := Outcome.bind_eq_ok.1 h
      obtain ⟨x2, g2, h⟩ := Outcome.bind_eq_ok.1 h
      cases h
      exact (hs.same (activateOrFail_same g1)).same (activateOrFail_same g2)
  | extendSplit id target ext =>
    simp only [localIds] at hn
    simp only [applyLocal, extendSplit] at h
    obtain ⟨a1, h1, h⟩ := Outcome.bind_eq_ok.1 h
    split at h
    · cases h; exact hs
    · obtain ⟨a2, h2, h⟩ := Outcome.bind_eq_ok.1 h
      split at h
      · cases h; exact hs
      · obtain ⟨x1, g1, h⟩ := Outcome.bind_eq_ok.1 h
        obtain ⟨x2, g2, h⟩ := Outcome.bind_eq_ok.1 h
        obtain ⟨x3, g3, h⟩ := Outcome.bind_eq_ok.1 h
        cases h
        exact (((hs.vacate e).place g1 fun e => absurd e (hno hn)).same (activateOrFail_same g2)).same (activateOrFail_same g3)
  | mergeContract p m =>
    simp only [applyLocal, mergeContract] at h
    obtain ⟨a1, h1, h⟩ := Outcome.bind_eq_ok.1 h
    split at h
    · cases h; exact hs
    · obtain ⟨x1, g1, h⟩ := Outcome.bind_eq_ok.1 h
      obtain ⟨x2, g2, h⟩ := Outcome.bind_eq_ok.1 h
      cases h
      exact sole_setActivity ((hs.same (activateOrFail_same g1)).same (activateOrFail_same g2))

theorem sole_runLocals {e : Bool} : ∀ {ls : List LocalInstr} {s : DSlice} {x : DSlice × Nat × Bool}, Sole c q s → (∀ l ∈ ls, c ∉ destroys l) → (∀ l ∈ ls, q ∉ localIds l) →
    runLocals e ls s = .ok x → Sole c q x.1
  | [], s, x, hs, _, _, h => by cases h; exact hs
  | l :: ls, s, x, hs, hl, hn, h => by
    rw [runLocals] at h
    obtain ⟨r, h1, h⟩ := Outcome.bind_eq_ok.1 h
    have g1 := sole_local hs (hl l (by simp)) (hn l (by simp)) h1
    split at h
    · cases h; exact g1
    · obtain ⟨y, h2, h⟩ := Outcome.bind_eq_ok.1 h
      cases h
      exact sole_runLocals (x := y) g1 (fun l' hl' => hl l' (List.mem_cons_of_mem _ hl')) (fun l' hl' => hn l' (List.mem_cons_of_mem _ hl')) h2

theorem names_not {l : Layers} (h : namesIn q l = 0) : (∀ i ∈ l.l1, q ∉ localIds i) ∧ ∀ i ∈ l.l2, q ∉ localIds i := by
  unfold namesIn at h
  have h1 : (allLocalIds l.l1).count q = 0 := by omega
  have h2 : (allLocalIds l.l2).count q = 0 := by omega
  refine ⟨fun i hi hm => List.count_eq_zero.1 h1 ?_, fun i hi hm => List.count_eq_zero.1 h2 ?_⟩
  · exact List.mem_flatMap.2 ⟨i, hi, hm⟩
  · exact List.mem_flatMap.2 ⟨i, hi, hm⟩

/-- The instruction puts no patch `q` on the lattice, except back on the cell `c`. -/
def Fresh (c : Cell) (q : Nat) (i : Instr) : Prop :=
  match i.op with
  | .init t _ _ => t ≠ q
  | .magic t _ => t ≠ q
  | .ystate t _ _ => t ≠ q
  | .bell b => b.side1 ≠ q ∧ b.side2 ≠ q ∧ ∀ ls, b.localInstrs = some ls → ∀ l ∈ ls, q ∉ localIds l
  | .bellCnot b => b.side1 ≠ q ∧ b.side2 ≠ q ∧ ∀ sets, b.localSets = some sets → ∀ ls ∈ sets, ∀ l ∈ ls, q ∉ localIds l
  | .busy _ _ after => ∀ p ∈ after, p.id = some q → ∀ o ∈ p.occ, o.cell = c
  | _ => True

/-- An attempt puts the patch on no other cell. -/
structure Lone {ρ : Type} (c : Cell) (q : Nat) (r : Wave.Res (Mach ρ)) : Prop where
  slice : Sole c q r.slice.slice
  instr : Fresh c q r.instr
  followups : ∀ j ∈ r.followups, Fresh c q j

variable {ρ : Type} {I : ρ → Prop} {ctx : Ctx ρ} {m : Mach ρ} {i : Instr} {r : Wave.Res (Mach ρ)} {ro : Bool} {R K : Nat}

theorem lone_fail {m' : Mach ρ} (hs : Sole c q m'.slice) (hi : Fresh c q i) (h : fail m' i = .ok r) : Lone c q r := by
  cases h; exact ⟨hs, hi, by simp⟩

theorem lone_success {m' : Mach ρ} (hs : Sole c q m'.slice) (hi : Fresh c q i) (h : success m' i = .ok r) : Lone c q r := by
  cases h; exact ⟨hs, hi, by simp⟩

theorem lone_followup {m' : Mach ρ} {f : Instr} (hs : Sole c q m'.slice) (hi : Fresh c q i) (hf : Fresh c q f) (h : followup m' i f = .ok r) : Lone c q r := by
  cases h; exact ⟨hs, hi, by simpa using hf⟩

theorem sole_merge (hs : Sole c q m.slice) {a b : Nat} {opA opB : Pauli} {x : Mach ρ × Bool} (h : merge ctx m a opA b opB = .ok x) : Sole c q x.1.slice := by
  unfold merge at h
  split at h
  · split at h
    · cases h; exact hs
    · obtain ⟨⟨o, rs⟩, h1, h⟩ := Outcome.bind_eq_ok.1 h
      simp only at h
      split at h
      · cases h; exact hs
      · split at h
        · obtain ⟨s, h2, h⟩ := Outcome.bind_eq_ok.1 h
          obtain ⟨y, h3, h⟩ := Outcome.bind_eq_ok.1 h
          cases h
          exact (hs.same (stitch_same h2)).filled (mark_filled h3).1
        · cases h
  · cases h

theorem lone_sq (hs : Sole c q m.slice) {t : Nat} {op : SqOp} {f : Bool} (hi : i.op = .sq t op f) (h : applySq ctx m i t op = .ok r) : Lone c q r := by
  have hi' : Fresh c q i := by unfold Fresh; rw [hi]; trivial
  unfold applySq at h
  split at h
  · split at h
    · split at h
      · cases h
      · obtain ⟨⟨m', ok⟩, h1, h⟩ := Outcome.bind_eq_ok.1 h
        have := sole_merge hs h1
        simp only at h
        split at h
        · cases h; exact ⟨this, hi', by simp [Fresh]⟩
        · exact lone_fail this hi' h
    · split at h
      · exact lone_fail hs hi' h
      · split at h
        · refine lone_success (m' := { m with slice := _ }) (hs.modPatch ?_) hi' h
          exact fun _ h => h
        · exact lone_success hs hi' h
  · exact lone_fail hs hi' h

theorem lone_multi (hs : Sole c q m.slice) {obs : List (Nat × Pauli)} {neg : Bool} {lo : Option LocalInstr} (hi : i.op = .multi obs neg lo) (h : applyMulti ctx m i obs neg = .ok r) :
    Lone c q r := by
  have hi' : Fresh c q i := by unfold Fresh; rw [hi]; trivial
  unfold applyMulti at h
  split at h
  · split at h
    · split at h
      · unfold applyMultiLocal at h
        obtain ⟨b1, -, h⟩ := Outcome.bind_eq_ok.1 h
        split at h
        · cases h
        · obtain ⟨b2, -, h⟩ := Outcome.bind_eq_ok.1 h
          split at h
          · cases h
          · obtain ⟨x, h1, h⟩ := Outcome.bind_eq_ok.1 h
            cases h
            exact ⟨sole_local hs (by simp [destroys]) (by simp [localIds]) h1, trivial, by simp⟩
      · split at h
        · cases h
        · obtain ⟨⟨m', ok⟩, h1, h⟩ := Outcome.bind_eq_ok.1 h
          have := sole_merge hs h1
          simp only at h
          split at h
          · exact lone_success this hi' h
          · exact lone_fail this hi' h
    · exact lone_fail hs hi' h
  · cases h

theorem lone_init (hs : Sole c q m.slice) {t : Nat} {st : InitState} {next : Option NextTo} (hi : i.op = .init t st next) (hi' : Fresh c q i) (h : applyInit ctx m i t next = .ok r) :
    Lone c q r := by
  have ht : t ≠ q := by unfold Fresh at hi'; rw [hi] at hi'; exact hi'
  unfold applyInit at h
  obtain ⟨o, -, h⟩ := Outcome.bind_eq_ok.1 h
  split at h
  · exact lone_fail hs hi' h
  · obtain ⟨y, h2, h⟩ := Outcome.bind_eq_ok.1 h
    exact lone_success (m' := { m with slice := _ }) ((hs.place h2 (by intro e; cases e)).modPatch fun _ e => absurd (Option.some.inj e) ht) hi' h

/-- Local instructions that leave the patch alone name it on no other cell. -/
theorem sole_mild {e : Bool} {ls : List LocalInstr} {x : DSlice × Nat × Bool} {s : DSlice} (hm : Safe ro c q R K s) (hs : Sole c q s) (hl : Mild c ls) (hn : ∀ l ∈ ls, q ∉ localIds l)
    (h : runLocals e ls s = .ok x) : Sole c q x.1 := by
  rcases hl with hl | hl
  · exact sole_runLocals hs hl hn h
  · cases stuck_runLocals hm hl h
    exact hs

theorem lone_bellRun {b : BellInit} {ls : List LocalInstr} {k : Nat} (hm : MSafe I ro c q R K m) (hs : Sole c q m.slice) (hb1 : b.side1 ≠ q) (hb2 : b.side2 ≠ q) (hl : Mild c (ls.drop k))
    (hn : ∀ l ∈ ls, q ∉ localIds l) (h : bellInitRun ctx m i b ls k = .ok r) : Lone c q r := by
  unfold bellInitRun at h
  obtain ⟨x, h1, h⟩ := Outcome.bind_eq_ok.1 h
  have g := sole_mild hm.slice hs hl (fun l hm => hn l (List.mem_of_mem_drop hm)) h1
  have hf : ∀ n : Nat × Nat, Fresh c q { i with op := .bell { b with localInstrs := some ls, counter := some n } } := by
    intro n
    refine ⟨hb1, hb2, ?_⟩
    intro ls' e
    cases e
    exact hn
  split at h
  · exact lone_success (m' := { m with slice := _ }) g (hf _) h
  · exact lone_followup (m' := { m with slice := _ }) g (hf _) (hf _) h

theorem lone_bell (hR : Avoids ctx.localInstrs ctx.router I ro c q R K) (hm : MSafe I ro c q R K m) (hk : Marks m.slice) (hs : Sole c q m.slice) {b : BellInit} (hi : i.op = .bell b) (hi' : Fresh c q i)
    (hd : Sound ro c q i) (h : applyBell ctx m i b = .ok r) : Lone c q r := by
  have hb := hi'
  unfold Fresh at hb
  rw [hi] at hb
  unfold applyBell at h
  split at h
  · cases h
  · rename_i hloc
    have hloc : ctx.localInstrs = true := by simpa using hloc
    split at h
    · exact lone_fail hs hi' h
    · split at h
      · exact lone_fail hs hi' h
      · split at h
        · split at h
          · cases h
          · rename_i ls e
            unfold Sound at hd
            rw [hi] at hd
            exact lone_bellRun hm hs hb.1 hb.2.1 (hd ls e _ _ ‹_›) (hb.2.2 ls e) h
        · obtain ⟨⟨rt, rs⟩, h1, h⟩ := Outcome.bind_eq_ok.1 h
          obtain ⟨g1, g2⟩ := hR.find hm.router hm.slice hk h1
          replace g2 := g2 hloc
          dsimp only at h
          cases rt with
          | none => exact lone_fail (m' := { m with rs := rs }) hs hi' h
          | some reg =>
            dsimp only at h
            split at h
            · exact lone_fail (m' := { m with rs := rs }) hs hi' h
            · obtain ⟨ls, h2, h⟩ := Outcome.bind_eq_ok.1 h
              have hl := bell_mild (c := c) (Nat.le_of_not_lt ‹_›) ((g2 reg rfl).imp id (·.2)) h2
              unfold bellInitLocals at h2
              obtain ⟨l, h3, h2⟩ := Outcome.bind_eq_ok.1 h2
              cases h2
              have hnm := names_not (q := q) (l := l) (by
                have := compile_names (n := q) h3
                simp [namesIn, allLocalIds, hb.1, hb.2.1] at this ⊢
                exact this)
              refine lone_bellRun (m := { m with rs := rs }) ⟨hm.slice, g1⟩ hs hb.1 hb.2.1 hl ?_ h
              intro l hm
              rcases List.mem_append.1 hm with hm | hm
              · exact hnm.1 l hm
              · exact hnm.2 l hm

theorem lone_cnotRun {b : BellCNOT} {sets : List (List LocalInstr)} {ps : List (Nat × Nat)} (hm : MSafe I ro c q R K m) (hs : Sole c q m.slice) (hb1 : b.side1 ≠ q) (hb2 : b.side2 ≠ q)
    (hl : Spares c b.phase (some ps) sets) (hn : ∀ ls ∈ sets, ∀ l ∈ ls, q ∉ localIds l) (h : cnotRun ctx m i b sets ps = .ok r) : Lone c q r := by
  unfold cnotRun at h
  split at h
  · rename_i x1 second ps' ls sets'
    obtain ⟨x, h1, h⟩ := Outcome.bind_eq_ok.1 h
    have hd : Mild c (ls.drop second) := by
      rcases hl with hl | ⟨-, _, _, _, _, _, e1, e2, hl⟩
      · exact .inl fun l hm => hl ls (by simp) l (List.mem_of_mem_drop hm)
      · cases e1
        cases e2
        exact .inr hl
    have g := sole_mild hm.slice hs hd (fun l hm => hn ls (by simp) l (List.mem_of_mem_drop hm)) h1
    have hf : ∀ n : List (Nat × Nat), Fresh c q { i with op := .bellCnot { b with localSets := some (ls :: sets'), counterPairs := some n } } := by
      intro n
      refine ⟨hb1, hb2, ?_⟩
      intro ss e
      cases e
      exact hn
    dsimp only at h
    split at h
    · exact lone_success (m' := { m with slice := _ }) g (hf _) h
    · exact lone_followup (m' := { m with slice := _ }) g (hf _) (hf _) h
  · cases h

theorem lone_cnotPhase {b : BellCNOT} {sets : List (List LocalInstr)} {ps : List (Nat × Nat)} {k : Nat} (hs : Sole c q m.slice) (hb1 : b.side1 ≠ q) (hb2 : b.side2 ≠ q)
    (hb : b.localSets = some sets) (hl : ∀ ls ∈ sets, ∀ l ∈ ls, c ∉ destroys l) (hn : ∀ ls ∈ sets, ∀ l ∈ ls, q ∉ localIds l) (h : cnotPhase ctx m i b sets ps k = .ok r) : Lone c q r := by
  unfold cnotPhase at h
  split at h
  · rename_i x1 second ls hps hls
    obtain ⟨x, h1, h⟩ := Outcome.bind_eq_ok.1 h
    have g := sole_runLocals hs (fun l hm => hl ls (List.mem_of_getElem? hls) l (List.mem_of_mem_drop hm)) (fun l hm => hn ls (List.mem_of_getElem? hls) l (List.mem_of_mem_drop hm)) h1
    have hf : ∀ (n : List (Nat × Nat)) (ph : Option Nat), Fresh c q { i with op := .bellCnot { b with counterPairs := some n, phase := ph } } := by
      intro n ph
      refine ⟨hb1, hb2, ?_⟩
      intro ss e
      dsimp only at e
      rw [hb] at e
      cases e
      exact hn
    dsimp only at h
    split at h
    · exact lone_followup (m' := { m with slice := _ }) g (hf _ _) (hf _ _) h
    · split at h
      · exact lone_success (m' := { m with slice := _ }) g (hf _ _) h
      · exact lone_followup (m' := { m with slice := _ }) g (hf _ _) (hf _ _) h
  · cases h

theorem lone_cnot (hR : Avoids ctx.localInstrs ctx.router I ro c q R K) (hm : MSafe I ro c q R K m) (hk : Marks m.slice) (hs : Sole c q m.slice) {b : BellCNOT} (hi : i.op = .bellCnot b) (hi' : Fresh c q i)
    (hd : Sound ro c q i) (h : applyCnot ctx m i b = .ok r) : Lone c q r := by
  have hb := hi'
  unfold Fresh at hb
  rw [hi] at hb
  obtain ⟨hn1, hn2, hn3⟩ := hb
  unfold Sound at hd
  rw [hi] at hd
  obtain ⟨hb1, hb0, hb2⟩ := hd
  unfold applyCnot at h
  split at h
  · cases h
  · rename_i hloc
    have hloc : ctx.localInstrs = true := by simpa using hloc
    split at h
    · split at h
      · exact lone_fail hs hi' h
      · split at h
        · unfold applyCnotEdpc at h
          split at h
          · unfold cnotRoute at h
            obtain ⟨⟨rt, rs⟩, h1, h⟩ := Outcome.bind_eq_ok.1 h
            dsimp only at h
            cases rt with
            | none => exact lone_fail (m' := { m with rs := rs }) hs hi' h
            | some reg =>
              dsimp only at h
              split at h
              · cases h
              · obtain ⟨reg', h2, h⟩ := Outcome.bind_eq_ok.1 h
                obtain ⟨x, h3, h⟩ := Outcome.bind_eq_ok.1 h
                cases h
                have hf : Fresh c q { i with op := .bellCnot { b with route := some x.2 } } := ⟨hn1, hn2, hn3⟩
                exact ⟨hs.filled (mark_filled h3).1, hf, by simpa using hf⟩
          · split at h
            · unfold cnotDecompose at h
              obtain ⟨x, h1, h⟩ := Outcome.bind_eq_ok.1 h
              obtain ⟨p, h2, h⟩ := Outcome.bind_eq_ok.1 h
              have hc := compileEdpc_names (n := q) h2
              rw [show [b.side1, b.side2].count q = 0 from List.count_eq_zero.2 (by simp [Ne.symm hn1, Ne.symm hn2])] at hc
              have k1 := names_not (q := q) (l := p.p1) (by omega)
              have k2 := names_not (q := q) (l := p.p2) (by omega)
              refine lone_fail (i := { i with op := .bellCnot _ }) hs ?_ h
              refine ⟨hn1, hn2, ?_⟩
              intro ss e ls hls l hm
              cases e
              simp only [List.mem_cons, List.not_mem_nil, or_false] at hls
              rcases hls with rfl | rfl | rfl | rfl
              · exact k1.1 l hm
              · exact k1.2 l hm
              · exact k2.1 l hm
              · exact k2.2 l hm
            · split at h
              · rename_i phase sets e1 e2
                exact lone_cnotPhase hs hn1 hn2 e2 ((hb1 sets e2).resolve_right fun hn => by rw [e1] at hn; cases hn.1) (hn3 sets e2) h
              · cases h
        · unfold applyCnotPlain at h
          split at h
          · split at h
            · cases h
            · rename_i e0 _ sets e
              exact lone_cnotRun hm hs hn1 hn2 (by rw [e0] at hb1; exact hb1 sets e) (hn3 sets e) h
          · rename_i e0
            obtain ⟨⟨rt, rs⟩, h1, h⟩ := Outcome.bind_eq_ok.1 h
            obtain ⟨g1, g2⟩ := hR.find hm.router hm.slice hk h1
            replace g2 := g2 hloc
            dsimp only at h
            cases rt with
            | none => exact lone_fail (m' := { m with rs := rs }) hs hi' h
            | some reg =>
              dsimp only at h
              split at h
              · cases h
              · obtain ⟨reg', h2, h⟩ := Outcome.bind_eq_ok.1 h
                obtain ⟨u, v, rfl⟩ := withEnds_shape h2
                obtain ⟨l, h3, h⟩ := Outcome.bind_eq_ok.1 h
                have hnm := names_not (q := q) (l := l) (by
                  have := compileWhole_names (n := q) h3
                  simp [namesIn, allLocalIds, hn1, hn2] at this ⊢
                  exact this)
                refine lone_cnotRun (m := { m with rs := rs }) ⟨hm.slice, g1⟩ hs hn1 hn2 (whole_spares (Nat.le_of_not_lt ‹_›) ((g2 reg rfl).imp id (·.2)) (hb0 e0) h3) ?_ h
                · intro ls hls l' hm
                  simp only [List.mem_cons, List.not_mem_nil, or_false] at hls
                  subst hls
                  rcases List.mem_append.1 hm with hm | hm
                  · exact hnm.1 l' hm
                  · exact hnm.2 l' hm
    · exact lone_fail hs hi' h

theorem lone_rotate (hs : Sole c q m.slice) {t : Nat} (hi' : Fresh c q i) (h : applyRotate ctx m i t = .ok r) : Lone c q r := by
  rcases applyRotate_ok h with rfl | ⟨x, p, n, reg, y, hc, hpc, hl, hreg, h3, rfl⟩
  · exact ⟨hs, hi', by simp⟩
  · have h1 : Sole c q (m.slice.put x none) := hs.put (by intro e; cases e)
    obtain ⟨g1, g2⟩ := mark_filled h3
    refine ⟨h1.filled g1, hi', ?_⟩
    intro j hj
    simp only [List.mem_singleton] at hj
    subst hj
    unfold Fresh
    dsimp only
    intro p' hp' hid o ho
    rw [List.mem_singleton.1 hp'] at hid ho
    have : o.cell = x := by
      unfold SparsePatch.occ rotated at ho
      simp only [List.mem_singleton] at ho
      rw [ho]
    rw [this]
    refine hs x ?_
    rw [rotated_id] at hid
    unfold DSlice.idAt
    rw [hpc]; exact hid

theorem sole_placeSubs {b : Bool} : ∀ {os : List OccCell} {s s' : DSlice}, Sole c q s → placeSubs b os s = .ok s' → Sole c q s'
  | [], s, s', hs, h => by cases h; exact hs
  | o :: os, s, s', hs, h => by
    rw [placeSubs] at h
    obtain ⟨x, h1, h⟩ := Outcome.bind_eq_ok.1 h
    exact sole_placeSubs (hs.place h1 (by intro e; cases e)) h

theorem sole_restore : ∀ {ps : List SparsePatch} {s : DSlice} {x : DSlice × Bool}, Sole c q s → (∀ p ∈ ps, p.id = some q → ∀ o ∈ p.occ, o.cell = c) → restore ps s = .ok x → Sole c q x.1
  | [], s, x, hs, _, h => by cases h; exact hs
  | p :: ps, s, x, hs, hp, h => by
    rw [restore] at h
    obtain ⟨f, -, h⟩ := Outcome.bind_eq_ok.1 h
    split at h
    · cases h; exact hs
    · obtain ⟨s1, h1, h⟩ := Outcome.bind_eq_ok.1 h
      refine sole_restore (s := s1) ?_ (fun p' hp' => hp p' (List.mem_cons_of_mem _ hp')) h
      unfold place at h1
      split at h1
      · obtain ⟨y, h2, h1⟩ := Outcome.bind_eq_ok.1 h1
        cases h1
        refine hs.place h2 fun e o ho => hp p (by simp) e o ?_
        unfold SparsePatch.occ; rw [ho]; simp
      · exact sole_placeSubs hs h1

theorem lone_busy (hs : Sole c q m.slice) {reg : RoutingRegion} {k : Nat} {after : List SparsePatch} (hi : i.op = .busy reg k after) (hi' : Fresh c q i)
    (h : applyBusy ctx m i reg k after = .ok r) : Lone c q r := by
  have hm := hi'
  unfold Fresh at hm
  rw [hi] at hm
  unfold applyBusy at h
  split at h
  · obtain ⟨s, h1, h⟩ := Outcome.bind_eq_ok.1 h
    obtain ⟨x, h2, h⟩ := Outcome.bind_eq_ok.1 h
    have g : Sole c q x.1 := by
      refine sole_restore ?_ hm h2
      obtain ⟨e, -⟩ := clear_ok h1
      subst e
      refine hs.of fun y hy => ?_
      unfold DSlice.idAt at *
      simp only at hy
      split at hy
      · cases hy
      · exact hy
    split at h
    · exact lone_fail (m' := { m with slice := _ }) g hi' h
    · exact lone_success (m' := { m with slice := _ }) g hi' h
  · obtain ⟨u, -, h⟩ := Outcome.bind_eq_ok.1 h
    cases h; exact ⟨hs, hi', by simpa [Fresh] using hm⟩

theorem lone_magic (hs : Sole c q m.slice) {t near : Nat} (hi : i.op = .magic t near) (hi' : Fresh c q i) (h : applyMagic ctx m i t near = .ok r) : Lone c q r := by
  have ht : t ≠ q := by unfold Fresh at hi'; rw [hi] at hi'; exact hi'
  unfold applyMagic at h
  split at h
  · cases h
  · split at h
    · exact lone_fail hs hi' h
    · split at h
      · cases h
      · split at h
        · cases h
        · rename_i nc x hx
          obtain ⟨o, -, h⟩ := Outcome.bind_eq_ok.1 h
          cases o with
          | none => cases h
          | some p =>
            cases h
            exact ⟨(hs.modPatch (x := x) (f := fun p => { p with id := some t, type := .qubit, activity := .none }) fun _ e => absurd (Option.some.inj e) ht).fields rfl, hi', by simp⟩

theorem lone_y (hs : Sole c q m.slice) {t near : Nat} {lo : Option LocalInstr} (hi : i.op = .ystate t near lo) (hi' : Fresh c q i) (h : applyY ctx m i t near = .ok r) : Lone c q r := by
  have ht : t ≠ q := by unfold Fresh at hi'; rw [hi] at hi'; exact hi'
  unfold applyY at h
  split at h
  · rename_i x hx
    cases h
    exact ⟨(hs.modPatch (x := x) (f := fun p => { p with id := none }) (by intro _ e; cases e)).fields rfl, hi', by simp⟩
  · split at h
    · unfold yPredistilled at h
      obtain ⟨cs, h1, h⟩ := Outcome.bind_eq_ok.1 h
      split at h
      · exact lone_fail hs hi' h
      · split at h
        · cases h
        · split at h
          · exact lone_fail hs hi' h
          · rename_i x hn
            cases h
            exact ⟨(hs.modPatch (x := x) (f := fun p => { p with id := some t }) fun _ e => absurd (Option.some.inj e) ht).fields rfl, hi', by simp⟩
    · split at h
      · unfold yTwist at h
        split at h
        · cases h
        · obtain ⟨o, -, h⟩ := Outcome.bind_eq_ok.1 h
          split at h
          · exact lone_fail hs hi' h
          · obtain ⟨x, h2, h⟩ := Outcome.bind_eq_ok.1 h
            exact lone_success (m' := { m with slice := _ }) (i := { i with op := .ystate t near _ }) (sole_local hs (by simp [destroys]) (by simp [localIds, Ne.symm ht]) h2) ht h
      · exact lone_fail hs hi' h

theorem lone_measure (hs : Sole c q m.slice) {t : Nat} (hi' : Fresh c q i) (h : applyMeasure m i t = .ok r) : Lone c q r := by
  unfold applyMeasure at h
  split at h
  · exact lone_fail hs hi' h
  · refine lone_success (m' := { m with slice := _ }) (hs.modPatch ?_) hi' h
    intro _ h; first | exact h | cases h

/-- An attempt at an instruction that does not make a patch `q` leaves it on no other cell than it was. -/
theorem lone_apply (hR : Avoids ctx.localInstrs ctx.router I ro c q R K) (hm : MSafe I ro c q R K m) (hk : Marks m.slice) (hs : Sole c q m.slice) (hi : Fresh c q i) (hd : Sound ro c q i)
    (h : apply ctx m i = .ok r) : Lone c q r := by
  unfold apply at h
  split at h
  · exact lone_measure hs hi h
  · rename_i e; exact lone_sq hs e h
  · rename_i e; exact lone_multi hs e h
  · rename_i e; exact lone_init hs e hi h
  · rename_i e; exact lone_bell hR hm hk hs e hi hd h
  · rename_i e; exact lone_cnot hR hm hk hs e hi hd h
  · exact lone_rotate hs hi h
  · rename_i e; exact lone_magic hs e hi h
  · rename_i e; exact lone_y hs e hi h
  · rename_i e; exact lone_busy hs e hi h
  · exact lone_success hs hi h
  · cases h

/-! ### From slice to slice -/

theorem sole_spawn {x : Cell} (hs : Sole c q s) (h : s.spawn x = .ok s') : Sole c q s' := by
  unfold spawn at h
  obtain ⟨r, h1, h⟩ := Outcome.bind_eq_ok.1 h
  cases h
  exact (hs.place h1 (by intro e; cases e)).fields rfl

theorem sole_respawn {L : Layout} : ∀ {cs : List Cell} {k : Nat} {s s' : DSlice}, Sole c q s → respawn L cs k s = .ok s' → Sole c q s'
  | [], _, s, s', hs, h => by cases h; exact hs
  | x :: cs, k, s, s', hs, h => by
    rw [respawn] at h
    obtain ⟨s1, h1, h⟩ := Outcome.bind_eq_ok.1 h
    obtain ⟨s2, h2, h⟩ := Outcome.bind_eq_ok.1 h
    refine sole_respawn (s := s2) ?_ h
    have hs1 : Sole c q s1 := by
      unfold respawnCount at h1
      obtain ⟨p, hp, h1⟩ := Outcome.bind_eq_ok.1 h1
      split at h1
      · split at h1 <;> cases h1
        exact (hs.put (x := x) (p := some (distillationPatch (.all ⟨.connected, false⟩))) (by intro e; cases e)).fields rfl
      · split at h1
        · split at h1 <;> cases h1
          exact hs.fields rfl
        · cases h1; exact hs
    unfold respawnPlace at h2
    split at h2
    · split at h2
      · exact sole_spawn hs1 h2
      · cases h2; exact hs1
    · cases h2

theorem sole_factories {L : Layout} : ∀ {n k : Nat} {s s' : DSlice}, Sole c q s → factories L n k s = .ok s' → Sole c q s'
  | 0, _, s, s', hs, h => by cases h; exact hs
  | n + 1, k, s, s', hs, h => by
    rw [factories] at h
    split at h
    · obtain ⟨s1, h1, h⟩ := Outcome.bind_eq_ok.1 h
      refine sole_factories (s := s1) ?_ h
      unfold deliver at h1
      split at h1
      · obtain ⟨o, h2, h1⟩ := Outcome.bind_eq_ok.1 h1
        split at h1
        · obtain ⟨s2, h4, h1⟩ := Outcome.bind_eq_ok.1 h1
          cases h1
          exact (sole_spawn (s := { s with times := s.times.set k (dec32 (s.times.getD k 0)) }) (hs.fields rfl) h4).fields rfl
        · cases h1; exact hs.fields rfl
      · cases h1
    · exact sole_factories (s := { s with times := s.times.set k (dec32 (s.times.getD k 0)) }) (hs.fields rfl) h

theorem sole_advance {L : Layout} (hs : Sole c q s) (h : s.advance L = .ok s') : Sole c q s' := by
  have ha : Sole c q s.ageAll := by
    refine hs.of fun x hx => ?_
    unfold DSlice.idAt ageAll at *
    simp only at hx
    cases e : s.cells x with
    | none => rw [e] at hx; cases hx
    | some p =>
      rw [e] at hx
      simp only [Option.bind_some] at hx ⊢
      cases e' : age p with
      | none => rw [e'] at hx; cases hx
      | some p' =>
        rw [e'] at hx
        rw [← age_id e']; exact hx
  unfold advance at h
  simp only at h
  split at h
  · obtain ⟨s1, k1, h⟩ := Outcome.bind_eq_ok.1 h
    cases h
    exact (sole_respawn ha k1).fields rfl
  · obtain ⟨s1, k1, h⟩ := Outcome.bind_eq_ok.1 h
    cases h
    exact (sole_factories ha k1).fields rfl

theorem assignAll_id {n : Nat} : ∀ {l : List (Cell × DensePatch)} {s s' : DSlice}, (∀ x ∈ l, x.2.id = none) → assignAll l s = .ok s' → s'.idAt c = some n → s.idAt c = some n ∧ c ∉ l.map (·.1)
  | [], s, s', _, h, hn => by cases h; exact ⟨hn, by simp⟩
  | (x, p) :: l, s, s', hl, h, hn => by
    rw [assignAll] at h
    obtain ⟨s1, h1, h⟩ := Outcome.bind_eq_ok.1 h
    obtain ⟨g1, g2⟩ := assignAll_id (fun y hy => hl y (List.mem_cons_of_mem _ hy)) h hn
    unfold assign at h1
    split at h1
    · cases h1
      rw [idAt_put] at g1
      split at g1
      · have := hl (x, p) (by simp)
        rw [show (some p).bind (fun x => x.id) = p.id from rfl, this] at g1; cases g1
      · rename_i hne
        exact ⟨g1, by simp only [List.map_cons, List.mem_cons, not_or]; exact ⟨hne, g2⟩⟩
    · cases h1

/-- A cell with a named patch is not reserved for magic states. -/
theorem init_reserved {L : Layout} {ids : List Nat} (h : DSlice.init L ids = .ok s) (hq : s.idAt c = some q) : c ∉ L.reserved := by
  unfold DSlice.init at h
  split at h
  · cases h
  · obtain ⟨s1, h1, h⟩ := Outcome.bind_eq_ok.1 h
    obtain ⟨s2, h2, h⟩ := Outcome.bind_eq_ok.1 h
    obtain ⟨s3, h3, h⟩ := Outcome.bind_eq_ok.1 h
    obtain ⟨s4, h4, h⟩ := Outcome.bind_eq_ok.1 h
    obtain ⟨g1, -⟩ := assignAll_id (by simp [deadPatch]) h hq
    have g2 : s4.idAt c = some q := g1
    have g3 := (assignAll_id (by simp [distillationPatch]) h4 g2).2
    intro hm
    exact g3 (List.mem_map.2 ⟨_, List.mem_map.2 ⟨c, hm, rfl⟩, rfl⟩)

theorem sole_start {L : Layout} {ids : List Nat} {p : DensePatch} (hids : ids.Nodup) (h : DSlice.init L ids = .ok s) (hc : s.cells c = some p) (hq : p.id = some q) : Sole c q s := by
  intro x hx
  exact (init_inv hids h).uniq x c q hx (by unfold DSlice.idAt; rw [hc]; exact hq)

end

end Apply

namespace Real

open Apply DSlice Verif.Wave Verif.Pipe Verif.Slices.Spec

section
variable {ρ : Type} {I : ρ → Prop} {ctx : Ctx ρ} {realloc : Nat → Bool} {c : Cell} {q R K : Nat} {P : List Instr}

/-- An instruction that takes the patch away for good: it is measured, or given back as a `Y` state. -/
def Removes (q : Nat) (i : Instr) : Prop :=
  match i.op with
  | .measure t _ _ => t = q
  | .ystate t _ _ => t = q
  | _ => False

instance (q : Nat) (i : Instr) : Decidable (Removes q i) := by
  unfold Removes
  split <;> infer_instance

/-- An instruction that makes a patch of that name. -/
def Makes (q : Nat) (i : Instr) : Prop :=
  match i.op with
  | .init t _ _ => t = q
  | .magic t _ => t = q
  | .bell b => b.side1 = q ∨ b.side2 = q
  | .bellCnot b => b.side1 = q ∨ b.side2 = q
  | _ => False

/-- An attempt to take the patch away is shown, or nothing has happened. -/
theorem removed {m : Mach ρ} {i : Instr} {r : Res (Mach ρ)} (ht : Removes q i) (h : Apply.apply ctx m i = .ok r) :
    (r.err = false ∧ Removes q r.instr) ∨ (r.err = true ∧ r.slice = m ∧ r.instr = i) := by
  have hfail : ∀ {m' : Mach ρ} {j : Instr}, fail m' j = .ok r → r.err = true ∧ r.slice = m' ∧ r.instr = j := by
    intro m' j h; cases h; exact ⟨rfl, rfl, rfl⟩
  have hsucc : ∀ {m' : Mach ρ} {j : Instr}, success m' j = .ok r → r.err = false ∧ r.instr = j := by
    intro m' j h; cases h; exact ⟨rfl, rfl⟩
  unfold Removes at ht
  unfold Apply.apply at h
  split at h
  · rename_i e
    unfold applyMeasure at h
    split at h
    · exact .inr (hfail h)
    · obtain ⟨h1, h2⟩ := hsucc h
      exact .inl ⟨h1, by rw [h2]; exact ht⟩
  all_goals (try (rename_i e; rw [e] at ht; exact ht.elim))
  · rename_i t near lo e
    rw [e] at ht
    unfold applyY at h
    split at h
    · obtain ⟨h1, h2⟩ := hsucc h
      exact .inl ⟨h1, by rw [h2]; unfold Removes; rw [e]; exact ht⟩
    · split at h
      · unfold yPredistilled at h
        obtain ⟨cs, -, h⟩ := Outcome.bind_eq_ok.1 h
        split at h
        · exact .inr (hfail h)
        · split at h
          · cases h
          · split at h
            · exact .inr (hfail h)
            · obtain ⟨h1, h2⟩ := hsucc h
              exact .inl ⟨h1, by rw [h2]; unfold Removes; rw [e]; exact ht⟩
      · split at h
        · unfold yTwist at h
          split at h
          · cases h
          · obtain ⟨o, -, h⟩ := Outcome.bind_eq_ok.1 h
            split at h
            · exact .inr (hfail h)
            · obtain ⟨x, -, h⟩ := Outcome.bind_eq_ok.1 h
              obtain ⟨h1, h2⟩ := hsucc h
              exact .inl ⟨h1, by rw [h2]; exact ht⟩
        · exact .inr (hfail h)

theorem fresh_plain {i : Instr} (h : Plain i) (hm : ¬ Makes q i) : Removes q i ∨ (Sound true c q i ∧ Fresh c q i) := by
  rcases i with ⟨op, w, cl⟩
  cases op with
  | measure t _ _ => exact (Classical.em (t = q)).imp id fun h => ⟨h, trivial⟩
  | rotate t => exact .inr ⟨.inl rfl, trivial⟩
  | ystate t _ _ => exact (Classical.em (t = q)).imp id fun h => ⟨h, h⟩
  | bell b =>
    simp only [Plain] at h
    simp only [Makes, not_or] at hm
    refine .inr ⟨?_, hm.1, hm.2, ?_⟩ <;> (intro ls e; rw [h.2] at e; cases e)
  | bellCnot b =>
    simp only [Plain] at h
    simp only [Makes, not_or] at hm
    refine .inr ⟨⟨?_, fun _ => h.2.2.2, ?_⟩, hm.1, hm.2, ?_⟩
    · intro ls e; rw [h.2.2.1] at e; cases e
    · intro ls e; rw [h.1] at e; cases e
    · intro ls e; rw [h.2.2.1] at e; cases e
  | busy _ _ _ => exact h.elim
  | init t _ _ => exact .inr ⟨trivial, hm⟩
  | magic t _ => exact .inr ⟨trivial, hm⟩
  | _ => exact .inr ⟨trivial, trivial⟩

/-- No routing mark has an id. As long as nothing shown has taken the patch away, it is on its cell or being rotated, and nowhere else. -/
def Dwelling (I : ρ → Prop) (c : Cell) (q R K : Nat) (x : Mach ρ × List Instr) : Prop :=
  Marks x.1.slice ∧ ((∀ i ∈ x.2, ¬ Removes q i) → MSafe I true c q R K x.1 ∧ Sole c q x.1.slice)

/-- As long as nothing shown has taken the patch away, the instruction will not touch it except by taking it away. -/
def Leaving (c : Cell) (q : Nat) (x : Mach ρ × List Instr) (i : Instr) : Prop :=
  Quiet i ∧ ((∀ i ∈ x.2, ¬ Removes q i) → Removes q i ∨ (Sound true c q i ∧ Fresh c q i))

theorem dwelling_keeps (hR : Avoids ctx.localInstrs ctx.router I true c q R K) (hL : c ∉ ctx.layout.reserved) : Keeps (ghost (env ctx realloc)) (Dwelling I c q R K) (Leaving c q) where
  apply := by
    intro s i r h hi hr
    obtain ⟨r0, h1, rfl⟩ := ghost_apply hr
    have h2 : Apply.apply ctx s.1 i = .ok r0 := h1
    have hk := marks_apply h.1 hi.1 h2
    have hsub : ∀ {L : List Instr}, (∀ j ∈ (if r0.err then s.2 else s.2 ++ [r0.instr]), j ∈ L) → (∀ j ∈ L, ¬ Removes q j) → ∀ j ∈ s.2, ¬ Removes q j := by
      intro L hL hn j hj
      refine hn j (hL j ?_)
      split
      · exact hj
      · exact List.mem_append_left _ hj
    have key : (∀ j ∈ (if r0.err then s.2 else s.2 ++ [r0.instr]), ¬ Removes q j) →
        (MSafe I true c q R K r0.slice ∧ Sole c q r0.slice.slice) ∧ (Removes q r0.instr ∨ (Sound true c q r0.instr ∧ Fresh c q r0.instr)) ∧
          ∀ f ∈ r0.followups, Removes q f ∨ (Sound true c q f ∧ Fresh c q f) := by
      intro hn
      have hn0 := hsub (fun _ h => h) hn
      have g1 := h.2 hn0
      by_cases ht : Removes q i
      · rcases removed ht h2 with ⟨k1, k2⟩ | ⟨k1, k2, k3⟩
        · refine absurd k2 (hn _ ?_)
          simp [k1]
        · refine ⟨by rw [k2]; exact g1, .inl (by rw [k3]; exact ht), ?_⟩
          intro f hf
          rcases fails_alone ctx realloc _ _ _ h1 k1 with e | e
          · rw [e] at hf; cases hf
          · rw [e] at hf
            rw [List.mem_singleton.1 hf, k3]
            exact .inl ht
      · have hd := (hi.2 hn0).resolve_left ht
        have hs := spared_apply hR g1.1 h.1 hd.1 h2
        have ho := lone_apply hR g1.1 h.1 g1.2 hd.2 hd.1 h2
        exact ⟨⟨hs.safe, ho.slice⟩, .inr ⟨hs.instr, ho.instr⟩, fun f hf => .inr ⟨hs.followups f hf, ho.followups f hf⟩⟩
    refine ⟨⟨hk.slice, fun hn => (key hn).1⟩, ⟨hk.instr, fun hn => (key hn).2.1⟩, fun f hf => ⟨hk.followups f hf, fun hn => (key hn).2.2 f hf⟩, ?_⟩
    intro j hj
    exact ⟨hj.1, fun hn => hj.2 (hsub (fun _ h => h) hn)⟩
  waits _ h := h
  advance := by
    rintro s s' ⟨m1, h⟩ ha
    unfold ghost at ha
    dsimp only at ha
    obtain ⟨t, h1, ha⟩ := Outcome.bind_eq_ok.1 ha
    cases ha
    change Apply.step ctx s.1 = .ok t at h1
    unfold Apply.step at h1
    obtain ⟨u, h2, h1⟩ := Outcome.bind_eq_ok.1 h1
    cases h1
    refine ⟨⟨marks_advance m1 h2, fun hn => ?_⟩, fun j hj => hj⟩
    exact ⟨⟨safe_advance (fun _ => hL) (h hn).1.slice h2, (h hn).1.router⟩, sole_advance (h hn).2 h2⟩
  reset := by
    rintro s s' ⟨m1, h⟩ ha
    unfold ghost at ha
    dsimp only at ha
    obtain ⟨t, h1, ha⟩ := Outcome.bind_eq_ok.1 ha
    cases ha
    unfold env at h1
    dsimp only at h1
    obtain ⟨u, h2, h1⟩ := Outcome.bind_eq_ok.1 h1
    cases h1
    refine ⟨⟨m1.same (DSlice.resetMarked_same h2), fun hn => ?_⟩, fun j hj => hj⟩
    exact ⟨⟨(h hn).1.slice.same (DSlice.resetMarked_same h2), (h hn).1.router⟩, (h hn).2.same (DSlice.resetMarked_same h2)⟩

theorem leaving_plain {x : Mach ρ × List Instr} {i : Instr} (h : Plain i) (hm : ¬ Makes q i) : Leaving c q x i := ⟨quiet_plain h, fun _ => fresh_plain h hm⟩

end

end Real

end Verif
