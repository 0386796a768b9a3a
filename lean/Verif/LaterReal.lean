import Verif.Later
import Verif.RealProps

/-! # Follow-ups in the wave pipeline (C52): lemmas on the code -/

namespace Verif.Real

open Verif Apply Verif.Wave

section
variable {ρ : Type}

/-- The attempt does not change whether the instruction is immediate. -/
def Kind (i : Instr) (r : Res (Mach ρ)) : Prop := isImmediate r.instr = isImmediate i

theorem kind_eq {i : Instr} {r : Res (Mach ρ)} (h : r.instr = i) : Kind i r := by unfold Kind; rw [h]

theorem kind_fail {m : Mach ρ} {i : Instr} {r : Res (Mach ρ)} (h : fail m i = .ok r) : Kind i r := by
  cases h; rfl

theorem kind_success {m : Mach ρ} {i : Instr} {r : Res (Mach ρ)} (h : success m i = .ok r) : Kind i r := by
  cases h; rfl

theorem kind_bell {i : Instr} {r : Res (Mach ρ)} {b b' : BellInit} (h : i.op = .bell b) (h' : r.instr.op = .bell b') : Kind i r := by
  unfold Kind isImmediate; rw [h, h']

theorem kind_cn {i : Instr} {r : Res (Mach ρ)} {b b' : BellCNOT} (h : i.op = .bellCnot b) (h' : r.instr.op = .bellCnot b') : Kind i r := by
  unfold Kind isImmediate; rw [h, h']

theorem kind_bellRun {ctx : Ctx ρ} {m : Mach ρ} {i : Instr} {b : BellInit} (hi : i.op = .bell b) {b' : BellInit}
    {l : List LocalInstr} {k : Nat} {r : Res (Mach ρ)} (h : bellInitRun ctx m i b' l k = .ok r) : Kind i r := by
  unfold bellInitRun at h
  obtain ⟨x, -, h⟩ := Outcome.bind_eq_ok.1 h
  split at h <;> (cases h; exact kind_bell hi rfl)

theorem kind_cnotRun {ctx : Ctx ρ} {m : Mach ρ} {i : Instr} {c c' : BellCNOT} {sets : List (List LocalInstr)} {ps : List (Nat × Nat)} {r : Res (Mach ρ)}
    (hi : i.op = .bellCnot c) (h : cnotRun ctx m i c' sets ps = .ok r) : Kind i r := by
  unfold cnotRun at h
  split at h
  · obtain ⟨x, -, h⟩ := Outcome.bind_eq_ok.1 h
    dsimp only at h
    split at h <;> (cases h; exact kind_cn hi rfl)
  · cases h

theorem kind_cnot {ctx : Ctx ρ} {m : Mach ρ} {i : Instr} {c : BellCNOT} (hi : i.op = .bellCnot c) {r : Res (Mach ρ)} (h : applyCnot ctx m i c = .ok r) :
    Kind i r := by
  unfold applyCnot at h
  split at h
  · cases h
  · split at h
    · split at h
      · exact kind_fail h
      · split at h
        · unfold applyCnotEdpc at h
          split at h
          · rcases cnotRoute_shape h with ⟨h1, h2, h3⟩ | ⟨h1, h2, h3, x, h4⟩
            · exact kind_eq h1
            · exact kind_cn hi h4
          · split at h
            · obtain ⟨h1, -, h3, s1, s2, s3, s4, ps, h4⟩ := cnotDecompose_shape h
              exact kind_cn hi h4
            · split at h
              · obtain ⟨h1, h2, h3, -, ps', k', h4⟩ := cnotPhase_shape h
                exact kind_cn hi h4
              · cases h
        · unfold applyCnotPlain at h
          split at h
          · split at h
            · cases h
            · exact kind_cnotRun hi h
          · obtain ⟨⟨rt, rs⟩, -, h⟩ := Outcome.bind_eq_ok.1 h
            dsimp only at h
            cases rt with
            | none => exact kind_fail h
            | some region =>
              dsimp only at h
              split at h
              · cases h
              · obtain ⟨reg, -, h⟩ := Outcome.bind_eq_ok.1 h
                obtain ⟨l, -, h⟩ := Outcome.bind_eq_ok.1 h
                exact kind_cnotRun hi h
    · exact kind_fail h

theorem kind_apply {ctx : Ctx ρ} {m : Mach ρ} {i : Instr} {r : Res (Mach ρ)} (h : Apply.apply ctx m i = .ok r) : Kind i r := by
  unfold Apply.apply at h
  split at h
  · unfold applyMeasure at h
    split at h
    · exact kind_fail h
    · exact kind_success h
  · rename_i hi
    unfold applySq at h
    split at h
    · split at h
      · split at h
        · cases h
        · obtain ⟨⟨m', ok⟩, -, h⟩ := Outcome.bind_eq_ok.1 h
          dsimp only at h
          split at h
          · cases h
            exact rfl
          · exact kind_fail h
      · split at h
        · exact kind_fail h
        · split at h <;> exact kind_success h
    · exact kind_fail h
  · rename_i hi
    unfold applyMulti at h
    split at h
    · split at h
      · split at h
        · unfold applyMultiLocal at h
          obtain ⟨b1, -, h⟩ := Outcome.bind_eq_ok.1 h
          split at h
          · cases h
          · obtain ⟨b2, -, h⟩ := Outcome.bind_eq_ok.1 h
            split at h
            · cases h
            · obtain ⟨x, -, h⟩ := Outcome.bind_eq_ok.1 h
              cases h
              unfold Kind isImmediate; rw [hi]
        · split at h
          · cases h
          · obtain ⟨⟨m', ok⟩, -, h⟩ := Outcome.bind_eq_ok.1 h
            dsimp only at h
            split at h
            · exact kind_success h
            · exact kind_fail h
      · exact kind_fail h
    · cases h
  · unfold applyInit at h
    obtain ⟨o, -, h⟩ := Outcome.bind_eq_ok.1 h
    cases o with
    | none => exact kind_fail h
    | some c =>
      obtain ⟨x, -, h⟩ := Outcome.bind_eq_ok.1 h
      exact kind_success h
  · rename_i hi
    unfold applyBell at h
    split at h
    · cases h
    · split at h
      · exact kind_fail h
      · split at h
        · exact kind_fail h
        · split at h
          · split at h
            · cases h
            · exact kind_bellRun hi h
          · obtain ⟨⟨rt, rs⟩, -, h⟩ := Outcome.bind_eq_ok.1 h
            dsimp only at h
            cases rt with
            | none => exact kind_fail h
            | some region =>
              dsimp only at h
              split at h
              · exact kind_fail h
              · obtain ⟨l, -, h⟩ := Outcome.bind_eq_ok.1 h
                exact kind_bellRun hi h
  · rename_i hi
    exact kind_cnot hi h
  · rename_i t hi
    rcases applyRotate_ok h with rfl | ⟨c, p, n, reg, x, hc, hpc, -, -, h3, rfl⟩
    · exact kind_eq rfl
    · exact rfl
  · unfold applyMagic at h
    split at h
    · cases h
    · split at h
      · exact kind_fail h
      · split at h
        · cases h
        · split at h
          · cases h
          · obtain ⟨o, -, h⟩ := Outcome.bind_eq_ok.1 h
            cases o with
            | none => cases h
            | some p => exact kind_success h
  · rename_i hi
    unfold applyY at h
    split at h
    · exact kind_success h
    · split at h
      · unfold yPredistilled at h
        obtain ⟨l, -, h⟩ := Outcome.bind_eq_ok.1 h
        split at h
        · exact kind_fail h
        · split at h
          · cases h
          · split at h
            · exact kind_fail h
            · exact kind_success h
      · split at h
        · unfold yTwist at h
          split at h
          · cases h
          · obtain ⟨o, -, h⟩ := Outcome.bind_eq_ok.1 h
            cases o with
            | none => exact kind_fail h
            | some c =>
              dsimp only at h
              obtain ⟨x, -, h⟩ := Outcome.bind_eq_ok.1 h
              cases h
              unfold Kind isImmediate; rw [hi]
        · exact kind_fail h
  · rename_i hi
    unfold applyBusy at h
    split at h
    · obtain ⟨s, -, h⟩ := Outcome.bind_eq_ok.1 h
      obtain ⟨x, -, h⟩ := Outcome.bind_eq_ok.1 h
      split at h
      · exact kind_fail h
      · exact kind_success h
    · obtain ⟨s, -, h⟩ := Outcome.bind_eq_ok.1 h
      cases h
      exact rfl
  · exact kind_success h
  · cases h


end

end Verif.Real
