import Verif.WaveStart

/-! # Wave scheduler: properties (C22, C23, C24) -/

namespace Verif.Wave.Spec

open Verif.Wave

/-- The instruction names the patch. -/
def Touches (i : Instr) (p : Nat) : Prop := p ∈ i.clients ∨ p ∈ i.op.ids

/-- How often a record was shown to the visitor without announcing to go on. -/
def timesFinished (log : List Entry) (id : Nat) : Nat := (log.filter (fun e => decide (e.id = id ∧ e.followups ≠ [e.instr]))).length

/-- The program fits the scheduler: `client_patches` is a set, and an instruction names at most 255 patches
(asserted at wave_scheduler.cpp:33). -/
def Fits (prog : List Instr) : Prop := ∀ i ∈ prog, i.clients.Nodup ∧ i.deps.length ≤ 255

theorem timesFinished_eq (log : List Entry) (id : Nat) : timesFinished log id = finals log id := by
  unfold timesFinished finals
  rw [List.countP_eq_length_filter]
  congr 2
  funext e
  by_cases h1 : e.id = id <;> by_cases h2 : e.followups = [e.instr] <;> simp [Entry.final, h1, h2]

section
variable {σ : Type} {env : Env σ} {stage : Operation → Stage}

theorem reached (hP : Protocol env stage) {prog : List Instr} (hp : Fits prog) (hs : ∀ i ∈ prog, stage i.op = .plain) {slice : σ} {depth n k : Nat} {st : St σ}
    (h : runWaves env depth n (start slice prog) = .ok (st, k)) : Between (fun _ _ => True) stage prog.length (start slice prog).deps st :=
  runWaves_between (ambient_true env prog) (start_chained slice prog hp) (start_static slice prog hp) hP n h (start_between slice prog hp hs trivial)

/-- C22: whatever the outcomes of the attempts, what is shown for source instruction `b` and its follow-ups never comes
before what is shown for an earlier source instruction `a` on a common patch and its follow-ups (`origin` maps a
record to its source instruction). Missing: runs that use a dangling reference (`c22_dangling`), and what was shown
in a wave that ends with an exception. -/
theorem c22_order_partial (hP : Protocol env stage) {prog : List Instr} (hp : Fits prog) (hs : ∀ i ∈ prog, stage i.op = .plain) {slice : σ} {depth n k : Nat} {st : St σ}
    (h : runWaves env depth n (start slice prog) = .ok (st, k))
    {a b p : Nat} (hb : b < prog.length) (hab : a < b) (hpa : Touches (prog[a]'(by omega)) p) (hpb : Touches prog[b] p)
    {x y : Nat} (hy : y < st.log.length) (hxy : x < y) :
    ¬ (st.origin (st.log[x]'(by omega)).id = b ∧ st.origin st.log[y].id = a) := by
  rintro ⟨h1, h2⟩
  obtain ⟨L, hi⟩ := (reached hP hp hs h).inv
  obtain ⟨last, hbuilt⟩ := start_built slice prog hp
  have hbefore := hbuilt.chain a b p (by omega) hb hab (mem_deps.2 hpa) (mem_deps.2 hpb)
  have := List.pairwise_iff_getElem.1 hi.order x y (by omega) hy hxy
  rw [h1, h2] at this
  exact this hbefore

/-- C22, the records: the source instructions come first, each its own origin, and every further record stems from a
finished record that produced follow-ups and has the same origin. -/
theorem c22_origins (hP : Protocol env stage) {prog : List Instr} (hp : Fits prog) (hs : ∀ i ∈ prog, stage i.op = .plain) {slice : σ} {depth n k : Nat} {st : St σ}
    (h : runWaves env depth n (start slice prog) = .ok (st, k)) :
    (∀ i, i < prog.length → st.origin i = i) ∧
    (∀ i, prog.length ≤ i → i < st.size → st.origin i < prog.length ∧ ∃ e ∈ st.log, e.followups ≠ [e.instr] ∧ e.followups ≠ [] ∧ e.id < i ∧ st.origin e.id = st.origin i) := by
  obtain ⟨L, hi⟩ := (reached hP hp hs h).inv
  refine ⟨hi.originSrc, ?_⟩
  intro i h1 h2
  refine ⟨hi.originLt i h2, ?_⟩
  obtain ⟨e, he, h3, h4, h5, h6⟩ := hi.parent i h2 h1
  exact ⟨e, he, by simpa [Entry.final] using h3, h4, h5, h6⟩

/-- C23, between waves: no record is finished twice; the ready ones are queued once and not finished; one that is
neither finished nor queued is a source instruction waiting for an unfinished record. -/
theorem c23_states_partial (hP : Protocol env stage) {prog : List Instr} (hp : Fits prog) (hs : ∀ i ∈ prog, stage i.op = .plain) {slice : σ} {depth n k : Nat} {st : St σ}
    (h : runWaves env depth n (start slice prog) = .ok (st, k)) :
    (st.cur.prox ++ st.cur.heads).Nodup ∧
    ∀ i, i < st.size → timesFinished st.log i ≤ 1 ∧ (i ∈ st.cur.prox ++ st.cur.heads → timesFinished st.log i = 0) ∧
      (timesFinished st.log i = 0 → i ∉ st.cur.prox ++ st.cur.heads →
        i < prog.length ∧ ∃ d, d < st.size ∧ timesFinished st.log d = 0 ∧ i ∈ st.deps d) := by
  obtain ⟨L, hi⟩ := (reached hP hp hs h).inv
  refine ⟨hi.nodupK, ?_⟩
  intro i hlt
  simp only [timesFinished_eq]
  have honce := hi.once i hlt
  refine ⟨by rw [honce]; split <;> omega, ?_, ?_⟩
  · intro hm
    rw [honce, if_pos (hi.subK i hm)]
  · intro h0 hn
    have hL : i ∈ L := by
      by_cases hc : i ∈ L
      · exact hc
      · rw [honce, if_neg hc] at h0; omega
    have hN := hi.fresh i hL hn
    refine ⟨hN, ?_⟩
    have hc := (hi.wait i hN).2 ⟨hL, hn⟩
    rw [hi.cnt i hN] at hc
    simp only [List.count_nil, Nat.add_zero] at hc
    have : ∃ d ∈ L, i ∈ (start slice prog).deps (st.origin d) := by
      by_cases hex : ∃ d ∈ L, i ∈ (start slice prog).deps (st.origin d)
      · exact hex
      · rw [need_zero (fun d hd hm => hex ⟨d, hd, hm⟩)] at hc; omega
    obtain ⟨d, hd, hm⟩ := this
    refine ⟨d, hi.ltL d hd, by rw [hi.once d (hi.ltL d hd), if_pos hd], ?_⟩
    rw [hi.deps d (hi.ltL d hd)]; exact hm

/-- C23, at the end: when the scheduler reports done, every source instruction and every follow-up has been finished
exactly once, and the number of records is the number of source instructions plus the follow-ups produced. Missing:
see `c22_order_partial`. -/
theorem c23_done_partial (hP : Protocol env stage) {prog : List Instr} (hp : Fits prog) (hs : ∀ i ∈ prog, stage i.op = .plain) {slice : σ} {depth n k : Nat} {st : St σ}
    (h : runWaves env depth n (start slice prog) = .ok (st, k)) (hd : done st = true) :
    (∀ i, i < st.size → timesFinished st.log i = 1) ∧
    st.size = prog.length + ((st.log.filter (fun e => decide (e.followups ≠ [e.instr]))).map (fun e => e.followups.length)).sum := by
  obtain ⟨L, hi⟩ := (reached hP hp hs h).inv
  have hD := start_static slice prog hp
  unfold done at hd
  rw [Bool.and_eq_true, List.isEmpty_iff, List.isEmpty_iff] at hd
  rw [hd.1, hd.2] at hi
  have hnone : ∀ i, i ∉ L := by
    intro i
    induction i using Nat.strongRecOn with
    | ind i ih =>
      intro hL
      have hN := hi.fresh i hL (by simp)
      have hc := (hi.wait i hN).2 ⟨hL, by simp⟩
      rw [hi.cnt i hN] at hc
      simp only [List.count_nil, Nat.add_zero] at hc
      rw [need_zero] at hc
      · omega
      · intro d hdL hm
        have hdN := hi.fresh d hdL (by simp)
        rw [hi.originSrc d hdN] at hm
        exact ih d (hD d hdN i hm).1 hdL
  refine ⟨?_, ?_⟩
  · intro i hlt
    rw [timesFinished_eq, hi.once i hlt, if_neg (hnone i)]
  · rw [hi.total]
    congr 1
    generalize st.log = log
    induction log with
    | nil => rfl
    | cons e log ih =>
      simp only [spawned, ih, List.filter_cons]
      cases hf : e.final
      · have : decide (e.followups ≠ [e.instr]) = false := hf
        simp [this]
      · have : decide (e.followups ≠ [e.instr]) = true := hf
        simp [this]

/-- C24: with the protocol of the code, whatever was deferred during a wave is shown in the second deferred round and
is queued for the next wave. Missing: instructions outside the protocol are lost (`c24_lost`). -/
theorem c24_partial (hP : Protocol env stage) {prog : List Instr} (hp : Fits prog) (hs : ∀ i ∈ prog, stage i.op = .plain) {slice : σ} {depth n k : Nat} {st st' : St σ}
    (h : runWaves env depth n (start slice prog) = .ok (st, k)) (hw : scheduleWave env depth st = .ok st') :
    ∃ s1 s2, schedList env (tryImm env depth) true false st st.cur.prox = .ok s1 ∧ schedList env (tryImm env depth) false false s1 s1.cur.heads = .ok s2 ∧
      ∀ i ∈ s2.cur.deferred, i ∈ st'.cur.prox ∧ timesFinished st'.log i = 0 := by
  have hb := reached hP hp hs h
  have hD := start_static slice prog hp
  have hC := start_chained slice prog hp
  have hb' := scheduleWave_between (ambient_true env prog) hC hD hP hw hb
  obtain ⟨L, hi⟩ := hb'.inv
  have key : ∃ s1 s2, schedList env (tryImm env depth) true false st st.cur.prox = .ok s1 ∧ schedList env (tryImm env depth) false false s1 s1.cur.heads = .ok s2 ∧
      ∀ i ∈ s2.cur.deferred, i ∈ st'.cur.prox := by
    unfold scheduleWave at hw
    obtain ⟨s1, h1, hw⟩ := Outcome.bind_eq_ok.1 hw
    obtain ⟨s2, h2, hw⟩ := Outcome.bind_eq_ok.1 hw
    obtain ⟨s3, h3, hw⟩ := Outcome.bind_eq_ok.1 hw
    simp only [Outcome.ok.injEq] at hw
    subst hw
    refine ⟨s1, s2, h1, h2, ?_⟩
    exact deferred_kept (ambient_true env prog) hC hD hP hb h1 h2 h3
  obtain ⟨s1, s2, h1, h2, h3⟩ := key
  refine ⟨s1, s2, h1, h2, fun i him => ⟨h3 i him, ?_⟩⟩
  have hK : i ∈ st'.cur.prox ++ st'.cur.heads := List.mem_append_left _ (h3 i him)
  have hL := hi.subK i hK
  rw [timesFinished_eq, hi.once i (hi.ltL i hL), if_pos hL]

end

/-! ### Examples -/

/-- A small machine: rotations are followed by a busy region of two steps, a CNOT is deferred as in EDPC mode, and `Y`
measurements cannot be made. -/
def toyApply (_ : Unit) (i : Instr) : Outcome (Res Unit) :=
  match i.op with
  | .rotate _ => .ok ⟨(), i, false, [{ op := .busy { cells := [] } 2 [] }]⟩
  | .busy r n ps => if n = 0 then .ok ⟨(), i, false, []⟩ else .ok ⟨(), i, false, [{ op := .busy r (n - 1) ps }]⟩
  | .measure _ .Y _ => .ok ⟨(), i, true, []⟩
  | .bellCnot c =>
    match c.route, c.counterPairs, c.phase with
    | none, _, _ => let j : Instr := { i with op := .bellCnot { c with route := some { cells := [] }, counterPairs := none } }; .ok ⟨(), j, true, [j]⟩
    | some _, none, _ => .ok ⟨(), { i with op := .bellCnot { c with counterPairs := some [], phase := none } }, true, []⟩
    | some _, some _, none => let j : Instr := { i with op := .bellCnot { c with phase := some 1 } }; .ok ⟨(), j, false, [j]⟩
    | some _, some _, some _ => .ok ⟨(), i, false, []⟩
  | _ => .ok ⟨(), i, false, []⟩

def powerOfTwo (n : Nat) : Bool := n = 0 || n = 1 || n = 2 || n = 4 || n = 8 || n = 16

/-- With storage growing as in libstdc++ (up to 32 records). -/
def toy : Env Unit := { apply := toyApply, advance := .ok, reset := .ok, edpc := true, realloc := powerOfTwo }

/-- With storage reserved in advance. -/
def toyReserved : Env Unit := { toy with realloc := fun _ => false }

def toyStage : Operation → Stage
  | .bellCnot c =>
    match c.route, c.counterPairs, c.phase with
    | none, _, _ => .plain
    | some _, none, _ => .routed
    | some _, some _, none => .compiled
    | some _, some _, some _ => .plain
  | _ => .plain

theorem toy_protocol (re : Nat → Bool) : Protocol { toy with realloc := re } toyStage := by
  have key : ∀ s i r, toyApply s i = .ok r →
      r.followups.length ≤ 1 ∧
      (toyStage i.op = .plain → r.err = true → selfResult r = true → toyStage r.instr.op = .routed) ∧
      (toyStage i.op = .plain → ¬ (r.err = true ∧ selfResult r = true) → toyStage r.instr.op ≠ .routed) ∧
      (toyStage i.op = .plain → ∀ f ∈ r.followups, selfResult r = false → toyStage f.op ≠ .routed) ∧
      (toyStage i.op = .routed → r.err = true ∧ selfResult r = false ∧ toyStage r.instr.op = .compiled) ∧
      (toyStage i.op = .compiled → r.err = false ∧ selfResult r = true ∧ toyStage r.instr.op ≠ .routed) := by
    intro s i r h
    obtain ⟨op, w, cl⟩ := i
    cases op with
    | busy rg n ps =>
      simp only [toyApply] at h
      split at h <;> (simp only [Outcome.ok.injEq] at h; subst h; simp [toyStage])
    | bellCnot c =>
      obtain ⟨c1, c2, c3, c4, rt, cp, ls, ph⟩ := c
      cases rt <;> cases cp <;> cases ph <;> (simp only [toyApply, Outcome.ok.injEq] at h; subst h; simp [toyStage, selfResult])
    | measure t o ng => cases o <;> (simp only [toyApply, Outcome.ok.injEq] at h; subst h; simp [toyStage, selfResult])
    | _ => simp only [toyApply, Outcome.ok.injEq] at h; subst h; simp [toyStage, selfResult]
  exact ⟨fun s i r h => (key s i r h).1, fun s i r h h1 h2 h3 => ⟨rfl, (key s i r h).2.1 h1 h2 h3⟩, fun s i r h => (key s i r h).2.2.1,
    fun s i r h => (key s i r h).2.2.2.1, fun s i r h => (key s i r h).2.2.2.2.1, fun s i r h => (key s i r h).2.2.2.2.2⟩

/-- A joint measurement on two patches, a rotation on one, two Paulis on the other, and a CNOT. -/
def toyProg : List Instr :=
  [{ op := .multi [(1, .Z), (2, .X)] false none }, { op := .rotate 1 }, { op := .sq 2 .X false }, { op := .sq 2 .X false },
   { op := .bellCnot { control := 1, target := 2, side1 := 8, side2 := 9 } }]

example : Fits toyProg ∧ ∀ i ∈ toyProg, toyStage i.op = .plain := by
  refine ⟨?_, ?_⟩
  · unfold Fits; decide
  · decide

/-- The run of the example ends; eight records were made, and the order of what was shown. -/
example : (match runWaves toyReserved 10 20 (start () toyProg) with
    | .ok (st, k) => (done st, st.size, k, st.log.map (fun e => (e.id, st.origin e.id)))
    | _ => (false, 0, 0, [])) =
    (true, 8, 5, [(0, 0), (1, 1), (2, 2), (3, 3), (5, 1), (6, 1), (7, 1), (4, 4), (4, 4)]) := by decide

/-- C22, negation: with storage that grows, notifying the two dependents of the joint measurement adds a record (the
busy region of the rotation), which moves the records and frees the vector being iterated over. -/
theorem c22_dangling : runWaves toy 10 20 (start () (toyProg.take 4)) = .ub := by rfl

/-- The same machine, but a CNOT compiled in the first deferred round cannot be placed in the second. -/
def toyFail : Env Unit :=
  { toy with apply := fun s i => match i.op with
      | .bellCnot c => if c.route.isSome && c.counterPairs.isSome then .ok ⟨(), i, true, []⟩ else toyApply s i
      | _ => toyApply s i }

/-- C24, negation without the protocol: an instruction that fails in the second deferred round is dropped, and the
scheduler reports done although it never ran. -/
theorem c24_lost :
    ∃ st, scheduleWave toyFail 10 (start () (toyProg.drop 4)) = .ok st ∧ done st = true ∧ st.size = 1 ∧ timesFinished st.log 0 = 0 := by
  refine ⟨_, rfl, rfl, rfl, rfl⟩

/-- An instruction that is deferred again and again: the first deferred round already appends it a second time. -/
def toyAgain : Env Unit := { toy with apply := fun _ i => match i.op with
      | .bellCnot c => (match c.phase with
        | some 0 => .ok ⟨(), i, false, [i]⟩
        | some (n + 1) => let j : Instr := { i with op := .bellCnot { c with phase := some n } }; .ok ⟨(), j, true, [j]⟩
        | none => .ok ⟨(), i, false, [i]⟩)
      | _ => .ok ⟨(), i, false, []⟩ }

/-- C24, negation without the protocol: an instruction deferred in a deferred round is queued twice for the next wave. -/
theorem c24_duplicated :
    ∃ st, scheduleWave toyAgain 10 (start () [{ op := .bellCnot { control := 1, target := 2, side1 := 8, side2 := 9, phase := some 2 } }]) = .ok st ∧
      st.cur.prox = [0, 0] := by
  refine ⟨_, rfl, rfl⟩

end Verif.Wave.Spec
