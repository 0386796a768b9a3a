import Verif.BellRun
import Verif.SliceInv
import Verif.RealEnv
import Verif.SlicePropsIds

/-! # The steps in which an instruction is carried out: specification (C68) -/

namespace Verif.Course

open Verif Apply Verif.Wave

namespace Spec

/-- The local instructions with numbers from `w.1` up to but not including `w.2`. -/
def share (l : List LocalInstr) (w : Nat × Nat) : List LocalInstr := (l.drop w.1).take (w.2 - w.1)

/-- The local instructions that a step of a Bell pair or a CNOT carries out, as it is shown: those in its windows. -/
def performed : Operation → List LocalInstr
  | .bell b =>
    match b.localInstrs, b.counter with
    | some l, some w => share l w
    | _, _ => []
  | .bellCnot c =>
    match c.localSets, c.counterPairs with
    | some ls, some ws => (ls.zip ws).flatMap fun x => share x.1 x.2
    | _, _ => []
  | _ => []

/-- Carried out in one step, and shown as it is. -/
def Simple : Operation → Prop
  | .measure .. | .init .. | .magic .. | .reset _ => True
  | .sq _ op _ => op ≠ .S
  | _ => False

/-- `Done edpc o l`: the steps `l`, in this order, are the operation `o` carried out in full. -/
inductive Done (edpc : Bool) : Operation → List Operation → Prop
  /-- Most are one step. -/
  | once {o : Operation} (h : Simple o) : Done edpc o [o]
  /-- A measurement of two patches may note the cells. -/
  | multi {obs : List (Nat × Pauli)} {neg : Bool} {loc loc' : Option LocalInstr} (h : loc' = loc ∨ ∃ a b, loc' = some (.twoPatchMeasure a b)) :
      Done edpc (.multi obs neg loc) [.multi obs neg loc']
  /-- A Y state may note the cell. -/
  | ystate {t near : Nat} {loc loc' : Option LocalInstr} (h : loc' = loc ∨ ∃ c, loc' = some (.prepareY (some t) c)) :
      Done edpc (.ystate t near loc) [.ystate t near loc']
  /-- An S gate is followed by its correction. -/
  | phase {t : Nat} {d : Bool} : Done edpc (.sq t .S d) [.sq t .S d, .sq t .Z false]
  /-- A rotation occupies its two cells for three more steps and leaves the same qubit behind. -/
  | rotate {t : Nat} {r : RoutingRegion} {p : SparsePatch} (hp : p.id = some t) (hr : r.cells.length = 2) :
      Done edpc (.rotate t) [.rotate t, .busy r 2 [p], .busy r 1 [p], .busy r 0 [p]]
  /-- The steps of a Bell pair carry out the same local instructions, each once and in their order. -/
  | bell {b : BellInit} {L : List LocalInstr} {l : List Operation} (hne : l ≠ [])
      (hl : ∀ o ∈ l, ∃ w, o = .bell { b with localInstrs := some L, counter := some w }) (h : l.flatMap performed = L) : Done edpc (.bell b) l
  /-- So do those of a CNOT. -/
  | cnot {c : BellCNOT} {L : List LocalInstr} {l : List Operation} (he : edpc = false) (hne : l ≠ [])
      (hl : ∀ o ∈ l, ∃ w, o = .bellCnot { c with localSets := some [L], counterPairs := some [w] }) (h : l.flatMap performed = L) : Done edpc (.bellCnot c) l
  /-- With EDPC there are four sets of local instructions. The steps carry out all of them one after the other, unless the third is
  empty: then they carry out the first two only. -/
  | crossing {c : BellCNOT} {R : RoutingRegion} {A B C D : List LocalInstr} {l : List Operation} (he : edpc = true) (hne : l ≠ [])
      (hl : ∀ o ∈ l, ∃ ws k, o = .bellCnot { c with route := some R, localSets := some [A, B, C, D], counterPairs := some ws, phase := some k })
      (h : l.flatMap performed = if C = [] then A ++ B else A ++ B ++ C ++ D) : Done edpc (.bellCnot c) l

/-- The steps among those shown that are attributed to the instruction number `k`. -/
def stepsOf (tags : List Nat) (is : List Instr) (k : Nat) : List Operation := ((tags.zip is).filter fun x => x.1 == k).map fun x => x.2.op

/-- The instructions shown can be attributed to the instructions of the program. -/
structure Carried (edpc : Bool) (P is : List Instr) (whole : Prop) (tags : List Nat) : Prop where
  /-- Each instruction shown is a step of one instruction of the program. -/
  length : tags.length = is.length
  index : ∀ k ∈ tags, k < P.length
  /-- The steps attributed to an instruction are, from the first one on, steps in which it is carried out in full. If the run has
  been completed, they are all of them. -/
  steps : ∀ k x, P[k]? = some x → (stepsOf tags is k = [] ∧ ¬ whole) ∨ ∃ more, Done edpc x.op (stepsOf tags is k ++ more) ∧ (whole → more = [])
  /-- No step of an instruction comes after one of a later instruction with which it has a patch in common. -/
  order : tags.Pairwise fun a b => b < a → Apart P b a

end Spec

open Spec

theorem share_to (l : List LocalInstr) {k n : Nat} : l.take k ++ share l (k, k + n) = l.take (k + n) := by
  unfold share
  rw [show k + n - k = n by omega, List.take_add]

theorem share_empty (l : List LocalInstr) (k : Nat) : share l (k, k) = [] := by simp [share]

/-- The steps of a rotation above `k`. -/
def turned (r : RoutingRegion) (p : SparsePatch) (k : Nat) : List Operation := ([2, 1, 0].take (2 - k)).map fun j => .busy r j [p]

/-- `Going edpc o l i`: of the operation `o` the steps `l` have been carried out and what is pending is `i`. -/
inductive Going (edpc : Bool) : Operation → List Operation → Operation → Prop
  | fresh {o : Operation} (h : Slices.Spec.Plain { op := o }) : Going edpc o [] o
  | multi {obs : List (Nat × Pauli)} {neg : Bool} {loc : Option LocalInstr} {a b : Cell} : Going edpc (.multi obs neg loc) [] (.multi obs neg (some (.twoPatchMeasure a b)))
  | phase {t : Nat} {d : Bool} : Going edpc (.sq t .S d) [.sq t .S d] (.sq t .Z false)
  | rotate {t : Nat} {r : RoutingRegion} {p : SparsePatch} {k : Nat} (hp : p.id = some t) (hr : r.cells.length = 2) (hk : k ≤ 2) :
      Going edpc (.rotate t) (.rotate t :: turned r p k) (.busy r k [p])
  | bell {b : BellInit} {L : List LocalInstr} {l : List Operation} {k n : Nat} (hne : l ≠ [])
      (hl : ∀ o ∈ l, ∃ w, o = .bell { b with localInstrs := some L, counter := some w }) (h : l.flatMap performed = L.take n) :
      Going edpc (.bell b) l (.bell { b with localInstrs := some L, counter := some (k, n) })
  | cnot {c : BellCNOT} {L : List LocalInstr} {l : List Operation} {k n : Nat} (he : edpc = false) (hne : l ≠ [])
      (hl : ∀ o ∈ l, ∃ w, o = .bellCnot { c with localSets := some [L], counterPairs := some [w] }) (h : l.flatMap performed = L.take n) :
      Going edpc (.bellCnot c) l (.bellCnot { c with localSets := some [L], counterPairs := some [(k, n)] })
  | routed {c : BellCNOT} {R : RoutingRegion} (he : edpc = true) (h : c.counterPairs = none) : Going edpc (.bellCnot c) [] (.bellCnot { c with route := some R })
  | crossing {c : BellCNOT} {R : RoutingRegion} {S : List (List LocalInstr)} {ws : List (Nat × Nat)} {l : List Operation} {k : Nat} (he : edpc = true)
      (hS : S.length = 4) (hw : ws.length = 4) (hk : k < 4)
      (hl : ∀ o ∈ l, ∃ ws k, o = .bellCnot { c with route := some R, localSets := some S, counterPairs := some ws, phase := some k })
      (h : l.flatMap performed = (S.take k).flatten ++ ((S[k]?).getD []).take ((ws[k]?).getD (0, 0)).2)
      (hlow : ∀ j, j + 1 < k → ∃ a, ws[j]? = some (a, a)) (hhigh : ∀ j, k < j → j < 4 → ws[j]? = some (0, 0))
      (hnil : 1 < k → S[2]? ≠ some []) :
      Going edpc (.bellCnot c) l (.bellCnot { c with route := some R, localSets := some S, counterPairs := some ws, phase := some k })

/-- What an attempt leads to. -/
def Next {σ : Type} (edpc : Bool) (x : Operation) (l : List Operation) (r : Res σ) : Prop :=
  (r.err = true → Going edpc x l r.instr.op) ∧
  (r.err = false → (r.followups = [] → Done edpc x (l ++ [r.instr.op])) ∧ ∀ f ∈ r.followups, Going edpc x (l ++ [r.instr.op]) f.op)

section
variable {ρ : Type} {ctx : Ctx ρ} {m : Mach ρ} {i : Instr} {r : Res (Mach ρ)} {e : Bool} {x : Operation} {l : List Operation}

theorem next_fail (hg : Going e x l i.op) (h : fail m i = .ok r) : Next e x l r := by
  cases h
  exact ⟨fun _ => hg, fun h => nomatch h⟩

theorem next_unchanged (hg : Going e x l i.op) (h : Unchanged i r) : Next e x l r := by
  obtain ⟨h1, h2, h3⟩ := h
  exact ⟨fun _ => h1 ▸ hg, fun h => by rw [h2] at h; cases h⟩

theorem next_success (hd : Done e x (l ++ [i.op])) (h : success m i = .ok r) : Next e x l r := by
  cases h
  exact ⟨fun h => (nomatch h), fun _ => ⟨fun _ => hd, by simp⟩⟩

end

section
variable {ρ : Type} {ctx : Ctx ρ} {m : Mach ρ} {i : Instr} {r : Res (Mach ρ)} {x : Operation} {l : List Operation}

theorem next_bell {e : Bool} {b : BellInit} {L : List LocalInstr} {k : Nat} (hl : ∀ o ∈ l, ∃ w, o = .bell { b with localInstrs := some L, counter := some w })
    (h0 : l.flatMap performed = L.take k) (h : bellInitRun ctx m i b L k = .ok r) : Next e (.bell b) l r := by
  obtain ⟨n, h1, h2, h3, h4⟩ := bellInitRun_ok h
  have hop : r.instr.op = .bell { b with localInstrs := some L, counter := some (k, k + n) } := by rw [h2]
  have hl' : ∀ o ∈ l ++ [r.instr.op], ∃ w, o = .bell { b with localInstrs := some L, counter := some w } := by
    intro o ho
    rcases List.mem_append.1 ho with ho | ho
    · exact hl o ho
    · rw [List.mem_singleton.1 ho]; exact ⟨_, hop⟩
  have hp : (l ++ [r.instr.op]).flatMap performed = L.take (k + n) := by
    rw [List.flatMap_append, h0, hop]
    simp only [List.flatMap_cons, List.flatMap_nil, List.append_nil, performed]
    exact share_to L
  refine ⟨fun h => (by rw [h3] at h; cases h), fun _ => ⟨fun hf => ?_, fun f hf => ?_⟩⟩
  · rcases h4 with ⟨-, h4⟩ | h4
    · refine .bell (by simp) hl' ?_
      rw [hp, List.take_of_length_le]
      rw [List.length_drop] at h4
      omega
    · rw [h4] at hf; cases hf
  · rcases h4 with ⟨h4, -⟩ | h4
    · rw [h4] at hf; cases hf
    · rw [h4, List.mem_singleton] at hf
      rw [hf]
      have := Going.bell (edpc := e) (k := k) (by simp) hl' hp
      rw [← hop] at this
      exact this

theorem next_cnot {e : Bool} (he : e = false) {c : BellCNOT} {L : List LocalInstr} {w k : Nat} (hl : ∀ o ∈ l, ∃ w, o = .bellCnot { c with localSets := some [L], counterPairs := some [w] })
    (h0 : l.flatMap performed = L.take k) (h : cnotRun ctx m i c [L] [(w, k)] = .ok r) : Next e (.bellCnot c) l r := by
  obtain ⟨w', k', ps, ls, rest, n, e1, e2, h1, h2, h3, h4⟩ := cnotRun_ok h
  cases e1
  cases e2
  have hop : r.instr.op = .bellCnot { c with localSets := some [L], counterPairs := some [(k, k + n)] } := by rw [h2]
  have hl' : ∀ o ∈ l ++ [r.instr.op], ∃ w, o = .bellCnot { c with localSets := some [L], counterPairs := some [w] } := by
    intro o ho
    rcases List.mem_append.1 ho with ho | ho
    · exact hl o ho
    · rw [List.mem_singleton.1 ho]; exact ⟨_, hop⟩
  have hp : (l ++ [r.instr.op]).flatMap performed = L.take (k + n) := by
    rw [List.flatMap_append, h0, hop]
    simp only [List.flatMap_cons, List.flatMap_nil, List.append_nil, performed, List.zip_cons_cons, List.zip_nil_right]
    exact share_to L
  refine ⟨fun h => (by rw [h3] at h; cases h), fun _ => ⟨fun hf => ?_, fun f hf => ?_⟩⟩
  · rcases h4 with ⟨-, h4⟩ | h4
    · refine .cnot he (by simp) hl' ?_
      rw [hp, List.take_of_length_le]
      rw [List.length_drop] at h4
      omega
    · rw [h4] at hf; cases hf
  · rcases h4 with ⟨h4, -⟩ | h4
    · rw [h4] at hf; cases hf
    · rw [h4, List.mem_singleton] at hf
      rw [hf]
      have := Going.cnot (edpc := e) he (k := k) (by simp) hl' hp
      rw [← hop] at this
      exact this

theorem four {α : Type} {S : List α} (h : S.length = 4) : ∃ a b c d, S = [a, b, c, d] := by
  match S, h with
  | [a, b, c, d], _ => exact ⟨a, b, c, d, rfl⟩

/-- The windows after a step in phase `k`. -/
theorem shifted {S : List (List LocalInstr)} {ws : List (Nat × Nat)} {k a n : Nat} {b : Nat} {A : List LocalInstr} (hS : S.length = 4) (hw : ws.length = 4) (hk : k < 4)
    (hlow : ∀ j, j + 1 < k → ∃ a, ws[j]? = some (a, a)) (hhigh : ∀ j, k < j → j < 4 → ws[j]? = some (0, 0)) (h1 : ws[k]? = some (b, a)) (h2 : S[k]? = some A)
    {ws' : List (Nat × Nat)} (hw' : ws' = (closeWindow (if k ≠ 0 then closeWindow ws (k - 1) else ws) k).set k (a, a + n)) :
    ws'.length = 4 ∧ ws'[k]? = some (a, a + n) ∧ (∀ j, j < k → ∃ a, ws'[j]? = some (a, a)) ∧ (∀ j, k < j → j < 4 → ws'[j]? = some (0, 0)) ∧
      (S.zip ws').flatMap (fun x => share x.1 x.2) = share A (a, a + n) := by
  obtain ⟨s0, s1, s2, s3, rfl⟩ := four hS
  obtain ⟨⟨w0, v0⟩, ⟨w1, v1⟩, ⟨w2, v2⟩, ⟨w3, v3⟩, rfl⟩ := four hw
  have c4 : k = 0 ∨ k = 1 ∨ k = 2 ∨ k = 3 := by omega
  have f1 := hhigh 1
  have f2 := hhigh 2
  have f3 := hhigh 3
  have l0 := hlow 0
  have l1 := hlow 1
  rcases c4 with rfl | rfl | rfl | rfl
  all_goals
    simp [closeWindow, List.modify_cons] at h1 h2 hw' f1 f2 f3 l0 l1
    subst h2
    subst hw'
    simp [share_empty, *] at *
    first
      | (refine ⟨?_, ?_⟩
         · intro j hj
           have c4 : j = 0 ∨ j = 1 ∨ j = 2 := by omega
           rcases c4 with rfl | rfl | rfl <;> simp_all
         · intro j hj hj'
           have c4 : j = 1 ∨ j = 2 ∨ j = 3 := by omega
           rcases c4 with rfl | rfl | rfl <;> simp_all)
      | (intro j hj hj'
         have c4 : j = 1 ∨ j = 2 ∨ j = 3 := by omega
         rcases c4 with rfl | rfl | rfl <;> simp_all)
      | skip

theorem next_phase {e : Bool} (he : e = true) {c : BellCNOT} {R : RoutingRegion} {S : List (List LocalInstr)} {ws : List (Nat × Nat)} {k : Nat}
    (hS : S.length = 4) (hw : ws.length = 4) (hk : k < 4)
    (hl : ∀ o ∈ l, ∃ ws k, o = .bellCnot { c with route := some R, localSets := some S, counterPairs := some ws, phase := some k })
    (h0 : l.flatMap performed = (S.take k).flatten ++ ((S[k]?).getD []).take ((ws[k]?).getD (0, 0)).2)
    (hlow : ∀ j, j + 1 < k → ∃ a, ws[j]? = some (a, a)) (hhigh : ∀ j, k < j → j < 4 → ws[j]? = some (0, 0)) (hnil : 1 < k → S[2]? ≠ some [])
    (h : cnotPhase ctx m i { c with route := some R, localSets := some S, counterPairs := some ws, phase := some k } S ws k = .ok r) : Next e (.bellCnot c) l r := by
  unfold cnotPhase at h
  split at h
  · rename_i b a A h1 h2
    obtain ⟨x, hx, h⟩ := Outcome.bind_eq_ok.1 h
    obtain ⟨x1, x2⟩ := runLocals_count hx
    rw [List.length_drop] at x1 x2
    dsimp only at h
    generalize hw' : (closeWindow (if k ≠ 0 then closeWindow ws (k - 1) else ws) k).set k (a, a + x.2.1) = ws' at h
    obtain ⟨g1, g2, g3, g4, g5⟩ := shifted hS hw hk hlow hhigh h1 h2 hw'.symm
    have hl' : ∀ q, ∀ o ∈ l ++ [Operation.bellCnot { c with route := some R, localSets := some S, counterPairs := some ws', phase := some q }],
        ∃ ws k, o = .bellCnot { c with route := some R, localSets := some S, counterPairs := some ws, phase := some k } := by
      intro q o ho
      rcases List.mem_append.1 ho with ho | ho
      · exact hl o ho
      · rw [List.mem_singleton.1 ho]; exact ⟨_, _, rfl⟩
    have hp : ∀ q, (l ++ [Operation.bellCnot { c with route := some R, localSets := some S, counterPairs := some ws', phase := some q }]).flatMap performed = (S.take k).flatten ++ A.take (a + x.2.1) := by
      intro q
      rw [List.flatMap_append, h0, h1, h2]
      simp only [List.flatMap_cons, List.flatMap_nil, List.append_nil, performed, g5, Option.getD_some]
      rw [List.append_assoc, share_to]
    have hfull : x.2.2 = true → (S.take k).flatten ++ A.take (a + x.2.1) = (S.take (k + 1)).flatten := by
      intro hx
      rw [List.take_of_length_le (l := A) (by have := x2 hx; omega), List.take_add_one, h2, List.flatten_append]
      simp
    split at h
    · rename_i hx
      cases h
      refine ⟨fun h => (nomatch h), fun _ => ⟨fun h => (nomatch h), fun f hf => ?_⟩⟩
      rw [List.mem_singleton.1 hf]
      exact .crossing he hS g1 hk (hl' k) (by rw [hp, g2, h2]; rfl) (fun j hj => g3 j (by omega)) g4 hnil
    · rename_i hx
      have hx : x.2.2 = true := by simpa using hx
      split at h
      · rename_i hend
        cases h
        refine ⟨fun h => (nomatch h), fun _ => ⟨fun _ => ?_, by simp⟩⟩
        have hq := hp k
        rw [hfull hx] at hq
        have hll := hl' k
        obtain ⟨A', B', C', D', rfl⟩ := four hS
        refine .crossing (A := A') (B := B') (C := C') (D := D') (R := R) he (by simp) hll ?_
        dsimp only
        rw [hq]
        rcases hend with hend | ⟨rfl, hend⟩
        · simp only [List.length_cons, List.length_nil] at hend
          have : k = 3 := by omega
          subst this
          rw [if_neg (by intro hc; exact hnil (by omega) (by simp [hc]))]
          simp
        · simp only [List.getElem?_cons_succ, List.getElem?_cons_zero, Option.map_some, Option.some.injEq, List.isEmpty_iff] at hend
          simp [hend]
      · rename_i hend
        cases h
        refine ⟨fun h => (nomatch h), fun _ => ⟨fun h => (nomatch h), fun f hf => ?_⟩⟩
        rw [List.mem_singleton.1 hf]
        have hk' : k + 1 < 4 := by
          have : k ≠ S.length - 1 := fun hc => hend (.inl hc)
          omega
        refine .crossing he hS g1 hk' (hl' (k + 1)) ?_ (fun j hj => g3 j (by omega)) (fun j h1 h2 => g4 j (by omega) h2) ?_
        · rw [hp, hfull hx, g4 (k + 1) (by omega) hk']
          simp
        · intro hk1
          by_cases hk2 : k = 1
          · intro hc
            exact hend (.inr ⟨hk2, by rw [hc]; rfl⟩)
          · exact hnil (by omega)
  · cases h

theorem going_apply {x : Operation} (h : Apply.apply ctx m i = .ok r) (hg : Going ctx.router.edpc x l i.op) : Next ctx.router.edpc x l r := by
  unfold Apply.apply at h
  split at h
  · rename_i hi
    unfold applyMeasure at h
    split at h
    · exact next_fail hg h
    · refine next_success ?_ h
      rw [hi] at hg ⊢
      cases hg
      exact .once trivial
  · rename_i t op d hi
    unfold applySq at h
    split at h
    · split at h
      · rename_i hop
        subst hop
        split at h
        · cases h
        · obtain ⟨⟨m', ok⟩, -, h⟩ := Outcome.bind_eq_ok.1 h
          dsimp only at h
          split at h
          · cases h
            rw [hi] at hg
            cases hg
            refine ⟨fun h => (nomatch h), fun _ => ⟨fun h => (nomatch h), fun f hf => ?_⟩⟩
            rw [List.mem_singleton.1 hf]
            dsimp only
            rw [hi]
            exact .phase
          · exact next_fail hg h
      · rename_i hop
        have hd : Done ctx.router.edpc x (l ++ [i.op]) := by
          rw [hi] at hg ⊢
          cases hg with
          | fresh _ => exact .once hop
          | phase => exact .phase
        split at h
        · exact next_fail hg h
        · split at h <;> exact next_success hd h
    · exact next_fail hg h
  · rename_i obs neg loc hi
    unfold applyMulti at h
    split at h
    · split at h
      · split at h
        · unfold applyMultiLocal at h
          obtain ⟨b1, -, h⟩ := Outcome.bind_eq_ok.1 h
          split at h
          · cases h
          · obtain ⟨b2, -, h⟩ := Outcome.bind_eq_ok.1 h
            split at h
            · cases h
            · obtain ⟨x, -, h⟩ := Outcome.bind_eq_ok.1 h
              cases h
              rw [hi] at hg
              cases hg with
              | fresh _ => exact ⟨fun _ => .multi, fun _ => ⟨fun _ => .multi (.inr ⟨_, _, rfl⟩), by simp⟩⟩
              | multi => exact ⟨fun _ => .multi, fun _ => ⟨fun _ => .multi (.inr ⟨_, _, rfl⟩), by simp⟩⟩
        · split at h
          · cases h
          · obtain ⟨⟨m', ok⟩, -, h⟩ := Outcome.bind_eq_ok.1 h
            dsimp only at h
            split at h
            · refine next_success ?_ h
              rw [hi] at hg ⊢
              cases hg with
              | fresh _ => exact .multi (.inl rfl)
              | multi => exact .multi (.inr ⟨_, _, rfl⟩)
            · exact next_fail hg h
      · exact next_fail hg h
    · cases h
  · rename_i hi
    unfold applyInit at h
    obtain ⟨o, -, h⟩ := Outcome.bind_eq_ok.1 h
    cases o with
    | none => exact next_fail hg h
    | some c =>
      obtain ⟨x, -, h⟩ := Outcome.bind_eq_ok.1 h
      refine next_success ?_ h
      rw [hi] at hg ⊢
      cases hg
      exact .once trivial
  · rename_i b hi
    have hg0 := hg
    rw [hi] at hg0
    rcases applyBell_ok h with h | ⟨w, ls, h1, h2, h⟩ | ⟨h1, region, rs, ls, -, -, -, h⟩
    · exact next_unchanged hg h
    · cases hg0 with
      | fresh hp =>
        have := hp.1
        rw [h1] at this
        cases this
      | bell hne hl h0 =>
        cases h1
        cases h2
        exact next_bell hl h0 h
    · cases hg0 with
      | fresh hp => exact next_bell (by simp) (by simp) h
      | bell hne hl h0 => cases h1
  · rename_i c hi
    have hg0 := hg
    rw [hi] at hg0
    rcases applyCnot_ok h with h | ⟨he, h⟩ | ⟨he, h⟩
    · exact next_unchanged hg h
    · rcases applyCnotEdpc_ok h with h | ⟨h1, region, rs, a, b, region', -, -, -, -, -, h2, h3, h4⟩ | ⟨region, e, p, h1, h2, -, -, h3, h4, h5⟩ | ⟨region, pairs, phase, sets, h1, h2, h3, h4, h⟩
      · exact next_unchanged hg h
      · refine ⟨fun _ => ?_, fun h => (by rw [h3] at h; cases h)⟩
        rw [h2]
        cases hg0 with
        | fresh hp => exact .routed he hp.2.1
        | cnot he' => rw [he] at he'; cases he'
        | routed => cases h1
        | crossing => cases h1
      · refine ⟨fun _ => ?_, fun h => (by rw [h4] at h; cases h)⟩
        rw [h3]
        cases hg0 with
        | fresh hp => rw [hp.1] at h1; cases h1
        | cnot he' => rw [he] at he'; cases he'
        | routed =>
          refine .crossing he rfl rfl (by omega) (by simp) (by simp) (by omega) ?_ (by omega)
          intro j h1 h2
          have : j = 1 ∨ j = 2 ∨ j = 3 := by omega
          rcases this with rfl | rfl | rfl <;> rfl
        | crossing => cases h2
      · cases hg0 with
        | fresh hp => rw [hp.1] at h1; cases h1
        | cnot he' => rw [he] at he'; cases he'
        | routed _ hn => dsimp only at h2; rw [hn] at h2; cases h2
        | crossing he hS hw hk hl h0 hlow hhigh hnil =>
          cases h1; cases h2; cases h3; cases h4
          exact next_phase he hS hw hk hl h0 hlow hhigh hnil h
    · rcases applyCnotPlain_ok h with h | ⟨pairs, sets, h1, h2, h⟩ | ⟨h1, region, rs, region', ls, -, -, -, -, h⟩
      · exact next_unchanged hg h
      · cases hg0 with
        | fresh hp => rw [hp.2.1] at h1; cases h1
        | cnot _ hne hl h0 =>
          cases h1
          cases h2
          exact next_cnot (w := 0) he hl h0 h
        | routed he' => rw [he] at he'; cases he'
        | crossing he' => rw [he] at he'; cases he'
      · cases hg0 with
        | fresh hp => exact next_cnot he (by simp) (by simp) h
        | cnot _ hne hl h0 => cases h1
        | routed he' => rw [he] at he'; cases he'
        | crossing he' => rw [he] at he'; cases he'
  · rename_i t hi
    rcases applyRotate_ok h with rfl | ⟨c, p, n, reg, x, hc, hpc, -, hreg, h3, rfl⟩
    · exact ⟨fun _ => hg, fun h => (nomatch h)⟩
    · refine ⟨fun h => (nomatch h), fun _ => ⟨fun h => (nomatch h), fun f hf => ?_⟩⟩
      rw [List.mem_singleton.1 hf]
      rw [hi] at hg
      cases hg with
      | fresh _ =>
        dsimp only
        rw [hi]
        have hid : (rotated p c).id = some t := by
          rw [rotated_id]
          have h1 := (cellById_holds hc).1
          unfold DSlice.idAt at h1
          rw [hpc] at h1
          exact h1
        have hlen : x.2.cells.length = 2 := by
          have h1 := congrArg List.length (mark_cells h3)
          rw [List.length_map, List.length_map] at h1
          rw [h1]
          unfold rotationRegion at hreg
          split at hreg
          · cases hreg; rfl
          · cases hreg
        exact .rotate (k := 2) hid hlen (by omega)
  · rename_i hi
    unfold applyMagic at h
    split at h
    · cases h
    · split at h
      · exact next_fail hg h
      · split at h
        · cases h
        · split at h
          · cases h
          · obtain ⟨o, -, h⟩ := Outcome.bind_eq_ok.1 h
            cases o with
            | none => cases h
            | some p =>
              refine next_success ?_ h
              rw [hi] at hg ⊢
              cases hg
              exact .once trivial
  · rename_i t near loc hi
    have hg0 := hg
    rw [hi] at hg0
    cases hg0
    have hd : Done ctx.router.edpc (.ystate t near loc) ([] ++ [i.op]) := by
      rw [hi]
      exact .ystate (.inl rfl)
    unfold applyY at h
    split at h
    · exact next_success hd h
    · split at h
      · unfold yPredistilled at h
        obtain ⟨l, -, h⟩ := Outcome.bind_eq_ok.1 h
        split at h
        · exact next_fail hg h
        · split at h
          · cases h
          · split at h
            · exact next_fail hg h
            · exact next_success hd h
      · split at h
        · unfold yTwist at h
          split at h
          · cases h
          · obtain ⟨o, -, h⟩ := Outcome.bind_eq_ok.1 h
            cases o with
            | none => exact next_fail hg h
            | some c =>
              dsimp only at h
              obtain ⟨x, -, h⟩ := Outcome.bind_eq_ok.1 h
              exact next_success (.ystate (.inr ⟨_, rfl⟩)) h
        · exact next_fail hg h
  · rename_i reg k after hi
    have hg0 := hg
    rw [hi] at hg0
    cases hg0 with
    | fresh hp => exact absurd hp id
    | rotate hp hr hk =>
      unfold applyBusy at h
      split at h
      · rename_i hk0
        subst hk0
        obtain ⟨s, -, h⟩ := Outcome.bind_eq_ok.1 h
        obtain ⟨x, -, h⟩ := Outcome.bind_eq_ok.1 h
        split at h
        · exact next_fail hg h
        · refine next_success ?_ h
          rw [hi]
          exact .rotate hp hr
      · rename_i hk0
        obtain ⟨s, -, h⟩ := Outcome.bind_eq_ok.1 h
        cases h
        refine ⟨fun h => (nomatch h), fun _ => ⟨fun h => (nomatch h), fun f hf => ?_⟩⟩
        rw [List.mem_singleton.1 hf]
        dsimp only
        rw [hi]
        have e : ∀ t p, Operation.rotate t :: turned reg p k ++ [.busy reg k [p]] = .rotate t :: turned reg p (k - 1) := by
          intro t p
          have : k = 1 ∨ k = 2 := by omega
          rcases this with rfl | rfl <;> rfl
        rw [e]
        exact .rotate hp hr (by omega)
  · rename_i hi
    refine next_success ?_ h
    rw [hi] at hg ⊢
    cases hg
    exact .once trivial
  · cases h

end

end Verif.Course
