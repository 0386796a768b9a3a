import Verif.BoostLemmas
import Verif.RouterProps

/-! # Routes of the search based on Boost (C58)

The graph has no edges between free cells, so the search finds routes of at most two cells, the second of which, seen from the
source, holds a patch.
-/

namespace Verif.Boost.Spec

open Verif Search Router Router.Spec

/-- What the search based on Boost takes for a route, from the target to the source. -/
def Hop (L : Layout) (s : DSlice) (a : Cell) (sop : Pauli) (b : Cell) (top : Pauli) : List Cell → Prop
  | [] => a ≠ b ∧ (Offers s a b sop ∨ Offers s b a top)
  | [c] => OnGrid L c ∧ Offers s a c sop ∧ (Offers s b c top ∨ (a ≠ b ∧ s.cells c = none ∧ Touching b c))
  | [c, d] => OnGrid L c ∧ OnGrid L d ∧ s.cells c ≠ none ∧ s.cells d = none ∧ Touching c d ∧ Offers s b c top ∧ Offers s a d sop
  | _ => False

section
variable {q : Query}

theorem occupied (hg : q.Good) : q.slice.cells q.src ≠ none ∧ q.slice.cells q.tgt ≠ none :=
  ⟨fun h => hg.srcHeld (.inl h), fun h => hg.tgtHeld (.inl h)⟩

theorem not_self {a : Cell} : ¬ Touching a a := by
  rintro ⟨d, hd⟩; cases d <;> simp only [Faces] at hd <;> omega

theorem goal_ne_root (hg : q.Good) : goal q ≠ q.vertex q.src := by
  unfold goal
  intro h
  split at h
  · have := Query.vertex_lt hg hg.src; omega
  · rename_i hc
    exact hc (hg.same.2 (Query.vertex_inj hg hg.src hg.tgt h.symm))

/-- Where an edge into the goal comes from. -/
theorem edge_goal (hg : q.Good) {u : Nat} (h : Edge q u (goal q)) :
    (u = q.vertex q.src ∧ q.src ≠ q.tgt ∧ Offers q.slice q.src q.tgt q.srcOp) ∨
    (∃ c, u = q.vertex c ∧ OnGrid q.layout c ∧ (Offers q.slice q.tgt c q.tgtOp ∨ (q.src ≠ q.tgt ∧ q.slice.cells c = none ∧ Touching q.tgt c))) := by
  have hne : ∀ {n}, OnGrid q.layout n → goal q = q.vertex n → q.src ≠ q.tgt ∧ n = q.tgt := by
    intro n hn h
    unfold goal at h
    split at h
    · have := Query.vertex_lt hg hn; omega
    · rename_i hc
      exact ⟨fun e => hc (hg.same.2 e), Query.vertex_inj hg hn hg.tgt h.symm⟩
  rcases h with ⟨c, n, hc, hn, ht, hp, hf, rfl, hv⟩ | ⟨n, hn, ho, rfl, hv⟩ | ⟨n, hn, ho, rfl, -⟩
  · obtain ⟨h1, rfl⟩ := hne hc hv
    exact .inr ⟨n, rfl, hn, .inr ⟨h1, hf, ht⟩⟩
  · obtain ⟨h1, rfl⟩ := hne hn hv
    exact .inl ⟨rfl, h1, ho⟩
  · exact .inr ⟨n, rfl, hn, .inl ho⟩

/-- Where an edge into a cell that is not the goal comes from. -/
theorem edge_cell (hg : q.Good) {u : Nat} {c : Cell} (hc : OnGrid q.layout c) (hgoal : q.vertex c ≠ goal q) (h : Edge q u (q.vertex c)) :
    (u = q.vertex q.src ∧ Offers q.slice q.src c q.srcOp) ∨
    (∃ n, u = q.vertex n ∧ OnGrid q.layout n ∧ Touching c n ∧ q.slice.cells c ≠ none ∧ q.slice.cells n = none) := by
  rcases h with ⟨c', n, hc', hn, ht, hp, hf, rfl, hv⟩ | ⟨n, hn, ho, rfl, hv⟩ | ⟨n, hn, ho, rfl, hv⟩
  · cases Query.vertex_inj hg hc hc' hv
    exact .inr ⟨n, rfl, hn, ht, hp, hf⟩
  · cases Query.vertex_inj hg hc hn hv
    exact .inl ⟨rfl, ho⟩
  · exact absurd hv hgoal

theorem joined_eq (he : q.edpc = false) : q.joined = ⟨.connected, true⟩ := by unfold Query.joined; rw [he]; rfl

/-- The marks of one cell of a region. -/
theorem mark_cell (hg : q.Good) (he : q.edpc = false) {p c x : Cell} (hc : OnGrid q.layout c) (hp : OnGrid q.layout p) (hx : OnGrid q.layout x) (tp : Touching c p) (tx : Touching c x) :
    (q.regionCell (q.vertex p, q.vertex c, q.vertex x)).cell = c ∧
    ∀ n d, Faces c n d → (q.regionCell (q.vertex p, q.vertex c, q.vertex x)).bounds.get d = if n = p ∨ n = x then ⟨.connected, true⟩ else ⟨.none, false⟩ := by
  unfold Query.regionCell
  dsimp only
  rw [Query.cellOf_vertex hg hc, Query.cellOf_vertex hg hp, Query.cellOf_vertex hg hx]
  refine ⟨(Query.join_spec (q := q)).1, fun n d hd => ?_⟩
  rw [(Query.join_spec (q := q)).2 n d hd, joined_eq he, Query.all_get]
  by_cases hn : n = p ∨ n = x
  · rw [if_pos hn, if_pos]
    refine ⟨(mem_neighbours hc).2 ?_, by rcases hn with rfl | rfl <;> simp⟩
    rcases hn with rfl | rfl
    · exact ⟨tp, hp⟩
    · exact ⟨tx, hx⟩
  · rw [if_neg hn, if_neg]
    rintro ⟨-, h1 | h1⟩
    · exact hn (.inl h1.symm)
    · exact hn (.inr h1.symm)

/-- The cells of the predecessors, from the goal back. -/
theorem back (hg : q.Good) (he : q.edpc = false) {st : St} (ht : Tree (Edge q) (q.vertex q.src) st) {n : Nat} (hn : q.size ≤ n) {g : Nat} (hf : st.found (goal q) = some g) :
    ∃ r : List (Nat × Nat × Nat), walk ⟨n, fun _ => .ok []⟩ (fun v => ⟨none, pred st v⟩) (n + 2) (q.vertex q.tgt) (pred st (goal q)) = .ok (r, q.vertex q.src) ∧
      Hop q.layout q.slice q.src q.srcOp q.tgt q.tgtOp (r.map fun t => (q.regionCell t).cell) ∧ Marked ⟨.connected, true⟩ q.tgt (r.map q.regionCell) q.src := by
  have hsz : 0 < q.size := by unfold Query.size; omega
  obtain ⟨k, rfl⟩ : ∃ k, n = k + 1 := ⟨n - 1, by omega⟩
  have hlt : ∀ {c}, OnGrid q.layout c → q.vertex c < k + 1 := fun hc => by have := Query.vertex_lt hg hc; omega
  have hroot : pred st (q.vertex q.src) = q.vertex q.src := by unfold pred; rw [ht.root]; rfl
  have hpg : pred st (goal q) = g := by unfold pred; rw [hf]; rfl
  obtain ⟨h1, h2⟩ := ht.edge _ _ (goal_ne_root hg) hf
  have occ := occupied hg
  have ends : ∀ (p m : Nat), walk ⟨k + 1, fun _ => .ok []⟩ (fun v => ⟨none, pred st v⟩) (m + 1) p (q.vertex q.src) = .ok ([], q.vertex q.src) := by
    intro p m
    rw [walk]
    dsimp only
    rw [if_pos (hlt hg.src), if_pos hroot.symm]
  rw [hpg]
  by_cases hgs : g = q.vertex q.src
  · -- the source touches the target
    rcases edge_goal hg h1 with ⟨-, h3, h4⟩ | ⟨c, hc, hgc, h3⟩
    · exact ⟨[], by rw [hgs]; exact ends _ _, ⟨h3, .inl h4⟩, trivial⟩
    · have : c = q.src := Query.vertex_inj hg hgc hg.src (hc.symm.trans hgs)
      subst this
      rcases h3 with h3 | ⟨-, h3, -⟩
      · exact ⟨[], by rw [hgs]; exact ends _ _, ⟨fun e => not_self (e ▸ offers_touching h3), .inr h3⟩, trivial⟩
      · exact absurd h3 occ.1
  · rcases edge_goal hg h1 with ⟨h3, -⟩ | ⟨c, rfl, hgc, h3⟩
    · exact absurd h3 hgs
    have tc : Touching c q.tgt := by
      rcases h3 with h3 | ⟨-, -, h3⟩
      · exact faces_symm (offers_touching h3)
      · exact faces_symm h3
    have hcg : q.vertex c ≠ goal q := by
      unfold goal
      split
      · have := Query.vertex_lt hg hgc; omega
      · intro e
        rw [Query.vertex_inj hg hgc hg.tgt e] at tc
        exact not_self tc
    obtain ⟨d, hd⟩ : ∃ d, st.found (q.vertex c) = some d := by
      cases hx : st.found (q.vertex c) with
      | none => exact absurd hx h2
      | some d => exact ⟨d, rfl⟩
    have hpc : pred st (q.vertex c) = d := by unfold pred; rw [hd]; rfl
    obtain ⟨h4, h5⟩ := ht.edge _ _ hgs hd
    by_cases hds : d = q.vertex q.src
    · -- one cell
      have h6 : Offers q.slice q.src c q.srcOp := by
        rcases edge_cell hg hgc hcg h4 with ⟨-, h6⟩ | ⟨m, hm, hgm, -, -, h6⟩
        · exact h6
        · have : m = q.src := Query.vertex_inj hg hgm hg.src (hm.symm.trans hds)
          rw [this] at h6; exact absurd h6 occ.1
      obtain ⟨m1, m2⟩ := mark_cell hg he hgc hg.tgt hg.src tc (faces_symm (offers_touching h6))
      refine ⟨[(q.vertex q.tgt, q.vertex c, q.vertex q.src)], ?_, ?_, ?_⟩
      · rw [walk]
        dsimp only
        rw [if_pos (hlt hgc), hpc, if_neg (by rw [hds]; exact hgs), hds, ends]
        rfl
      · rw [List.map_cons, List.map_nil, m1]; exact ⟨hgc, h6, h3⟩
      · refine ⟨?_, trivial⟩
        rw [m1]
        exact m2
    · -- two cells
      rcases edge_cell hg hgc hcg h4 with ⟨h6, -⟩ | ⟨m, rfl, hgm, tm, hcc, hmm⟩
      · exact absurd h6 hds
      have h3' : Offers q.slice q.tgt c q.tgtOp := by
        rcases h3 with h3 | ⟨-, h3, -⟩
        · exact h3
        · exact absurd h3 hcc
      have hmg : q.vertex m ≠ goal q := by
        unfold goal
        split
        · have := Query.vertex_lt hg hgm; omega
        · intro e
          rw [Query.vertex_inj hg hgm hg.tgt e] at hmm
          exact occ.2 hmm
      obtain ⟨e, he'⟩ : ∃ e, st.found (q.vertex m) = some e := by
        cases hx : st.found (q.vertex m) with
        | none => exact absurd hx h5
        | some d => exact ⟨d, rfl⟩
      have hpm : pred st (q.vertex m) = e := by unfold pred; rw [he']; rfl
      obtain ⟨h7, -⟩ := ht.edge _ _ hds he'
      rcases edge_cell hg hgm hmg h7 with ⟨rfl, h8⟩ | ⟨_, _, _, _, h9, _⟩
      · obtain ⟨m1, m2⟩ := mark_cell hg he hgc hg.tgt hgm tc tm
        obtain ⟨m3, m4⟩ := mark_cell hg he hgm hgc hg.src (faces_symm tm) (faces_symm (offers_touching h8))
        have hcm : q.vertex c ≠ q.vertex m := fun e => by
          rw [Query.vertex_inj hg hgc hgm e] at tm; exact not_self tm
        refine ⟨[(q.vertex q.tgt, q.vertex c, q.vertex m), (q.vertex c, q.vertex m, q.vertex q.src)], ?_, ?_, ?_⟩
        · rw [walk]
          dsimp only
          rw [if_pos (hlt hgc), hpc, if_neg hcm, walk]
          dsimp only
          rw [if_pos (hlt hgm), hpm, if_neg hds, ends]
          rfl
        · rw [List.map_cons, List.map_cons, List.map_nil, m1, m3]; exact ⟨hgc, hgm, hcc, hmm, tm, h3', h8⟩
        · refine ⟨?_, ?_, trivial⟩
          · rw [m1]
            simp only [List.map_cons, nextCell, m3]
            exact m2
          · rw [m1, m3]
            exact m4
      · exact absurd hmm h9

theorem start_tree (q : Query) : Tree (Edge q) (q.vertex q.src) { found := upd (fun _ => none) (q.vertex q.src) (some (q.vertex q.src)), fr := [q.vertex q.src] } := by
  refine ⟨?_, ?_, ?_⟩ <;> dsimp only
  · rw [upd_same]
  · intro v u hv hu
    rw [upd_other _ _ hv] at hu; cases hu
  · intro v hv
    rw [List.mem_singleton.1 hv, upd_same]; simp

theorem start_done (q : Query) (e : List (Nat × Nat)) : Done e { found := upd (fun _ => none) (q.vertex q.src) (some (q.vertex q.src)), fr := [q.vertex q.src] } := by
  intro u hu
  dsimp only at hu
  by_cases h : u = q.vertex q.src
  · exact .inl (by rw [h]; exact List.mem_singleton.2 rfl)
  · rw [upd_other _ _ h] at hu; exact absurd rfl hu

/-- A route is returned if and only if the goal has been met. -/
theorem run_eq (hg : q.Good) (he : q.edpc = false) {pick : Pick} {o : Option RoutingRegion} (h : run q pick = .ok o) :
    ∃ e st, edges q = .ok e ∧ Tree (Edge q) (q.vertex q.src) st ∧ Done e st ∧ st.fr = [] ∧ goal q < total q e ∧
      match o with
      | none => st.found (goal q) = none
      | some r => st.found (goal q) ≠ none ∧ Hop q.layout q.slice q.src q.srcOp q.tgt q.tgtOp (r.cells.map (·.cell)) ∧
          Marked ⟨.connected, true⟩ q.tgt r.cells q.src ∧ r.regionId = none := by
  unfold run at h
  obtain ⟨e, h1, h⟩ := Outcome.bind_eq_ok.1 h
  dsimp only at h
  split at h
  · obtain ⟨st, h2, h⟩ := Outcome.bind_eq_ok.1 h
    obtain ⟨h3, h4, h5⟩ := explore_spec (fun u v huv => (edges_mem hg h1 u v).1 huv) _ (start_tree q) (start_done q e) h2
    split at h
    · rename_i hgt
      obtain ⟨r, h6, h⟩ := Outcome.bind_eq_ok.1 h
      refine ⟨e, st, h1, h3, h4, h5, hgt, ?_⟩
      cases hf : st.found (goal q) with
      | none =>
        have hp : pred st (goal q) = goal q := by unfold pred; rw [hf]; rfl
        have : walk ⟨total q e, fun _ => .ok []⟩ (fun v => ⟨none, pred st v⟩) (total q e + 2) (q.vertex q.tgt) (pred st (goal q)) = .ok ([], goal q) := by
          rw [walk, hp]
          dsimp only
          rw [if_pos hgt, if_pos hp.symm]
        rw [this] at h6
        cases h6
        dsimp only at h
        rw [if_neg (goal_ne_root hg)] at h
        cases h
        exact rfl
      | some g =>
        obtain ⟨r', h7, h8, h9⟩ := back hg he h3 (total_ge q e) hf
        rw [h7] at h6
        cases h6
        dsimp only at h
        rw [if_pos rfl] at h
        cases h
        dsimp only
        refine ⟨by simp, ?_, h9, rfl⟩
        rw [List.map_map]; exact h8
    · cases h
  · cases h

theorem run_ok (hg : q.Good) (he : q.edpc = false) (h1 : q.srcOp = .X ∨ q.srcOp = .Z) (h2 : q.tgtOp = .X ∨ q.tgtOp = .Z) (pick : Pick)
    (h3 : q.src ≠ q.tgt ∨ ∃ n, OnGrid q.layout n ∧ Offers q.slice q.tgt n q.tgtOp) : ∃ o, run q pick = .ok o := by
  obtain ⟨e, h4⟩ := edges_ok hg h1 h2
  have hs := Query.vertex_lt hg hg.src
  have ht := total_ge q e
  have hm := missing_upd (found := fun _ => none) (w := q.vertex q.src) (x := some (q.vertex q.src)) rfl (by simp) (total q e)
  have hm' := missing_le (fun _ => none) (total q e)
  obtain ⟨st, h5⟩ := explore_ok (e := e) (n := total q e) (pick := pick) (fun x hx => (total_mem (q := q) hx).2) (total q e + 1)
    (st := { found := upd (fun _ => none) (q.vertex q.src) (some (q.vertex q.src)), fr := [q.vertex q.src] }) (by
      rw [if_pos (by omega)] at hm
      rw [List.length_singleton]
      dsimp only
      omega)
  have hgoal : goal q < total q e := by
    by_cases hst : q.src = q.tgt
    · rcases h3 with h3 | ⟨n, hn, ho⟩
      · exact absurd hst h3
      · exact (total_mem (x := (q.vertex n, goal q)) ((edges_mem hg h4 _ _).2 (.inr (.inr ⟨n, hn, ho, rfl, rfl⟩)))).2
    · unfold goal
      rw [if_neg (fun hc => hst (hg.same.1 hc))]
      have := Query.vertex_lt hg hg.tgt
      omega
  obtain ⟨h6, h7, h8⟩ := explore_spec (fun u v huv => (edges_mem hg h4 u v).1 huv) _ (start_tree q) (start_done q e) h5
  unfold run
  rw [h4, Outcome.bind_ok]
  dsimp only
  rw [if_pos (by omega), h5, Outcome.bind_ok, if_pos hgoal]
  cases hf : st.found (goal q) with
  | none =>
    have hp : pred st (goal q) = goal q := by unfold pred; rw [hf]; rfl
    have : walk ⟨total q e, fun _ => .ok []⟩ (fun v => ⟨none, pred st v⟩) (total q e + 2) (q.vertex q.tgt) (pred st (goal q)) = .ok ([], goal q) := by
      rw [walk, hp]
      dsimp only
      rw [if_pos hgoal, if_pos hp.symm]
    rw [this]
    exact ⟨_, rfl⟩
  | some g =>
    obtain ⟨r', h9, -⟩ := back hg he h6 ht hf
    rw [h9]
    exact ⟨_, rfl⟩

/-- What looks like a route leads to the goal. -/
theorem reach (hg : q.Good) {e : List (Nat × Nat)} (h1 : edges q = .ok e) {st : St} (ht : Tree (Edge q) (q.vertex q.src) st) (hd : Done e st) (hfr : st.fr = []) {l : List Cell}
    (hl : Hop q.layout q.slice q.src q.srcOp q.tgt q.tgtOp l) : st.found (goal q) ≠ none := by
  have step : ∀ {u v}, st.found u ≠ none → Edge q u v → st.found v ≠ none := by
    intro u v hu huv
    rcases hd u hu with h | h
    · rw [hfr] at h; cases h
    · exact h v ((edges_mem hg h1 u v).2 huv)
  have hroot : st.found (q.vertex q.src) ≠ none := by rw [ht.root]; simp
  have hgoal : q.src ≠ q.tgt → goal q = q.vertex q.tgt := fun h => by
    unfold goal; rw [if_neg (fun hc => h (hg.same.1 hc))]
  match l, hl with
  | [], ⟨h2, h3⟩ =>
    rcases h3 with h3 | h3
    · rw [hgoal h2]; exact step hroot (.inr (.inl ⟨q.tgt, hg.tgt, h3, rfl, rfl⟩))
    · exact step hroot (.inr (.inr ⟨q.src, hg.src, h3, rfl, rfl⟩))
  | [c], ⟨h2, h3, h4⟩ =>
    have hc := step hroot (.inr (.inl ⟨c, h2, h3, rfl, rfl⟩))
    rcases h4 with h4 | ⟨h4, h5, h6⟩
    · exact step hc (.inr (.inr ⟨c, h2, h4, rfl, rfl⟩))
    · rw [hgoal h4]
      exact step hc (.inl ⟨q.tgt, c, hg.tgt, h2, h6, (occupied hg).2, h5, rfl, rfl⟩)
  | [c, d], ⟨h2, h3, h4, h5, h6, h7, h8⟩ =>
    have hd' := step hroot (.inr (.inl ⟨d, h3, h8, rfl, rfl⟩))
    have hc := step hd' (.inl ⟨c, d, h2, h3, h6, h4, h5, rfl, rfl⟩)
    exact step hc (.inr (.inr ⟨c, h2, h7, rfl, rfl⟩))

end

/-! ## C58 -/

theorem find_cases {L pick s source sop target top o} (h : find L pick s source sop target top = .ok o) :
    ∃ a b, s.cellById source = some a ∧ s.cellById target = some b ∧ run ⟨L, s, a, b, sop, top, source == target, false⟩ pick = .ok o := by
  unfold find at h
  split at h
  next a b ha hb => exact ⟨a, b, ha, hb, h⟩
  next => cases h

/-- C58, what holds: a route that is returned has at most two cells and is as described by `Hop`; its cells are marked exactly
on the sides on which it passes. -/
theorem c58_route_partial {L pick s source sop target top r} (hf : Fits L s) (h : find L pick s source sop target top = .ok (some r)) :
    ∃ a b, Holds s source a ∧ Holds s target b ∧ Hop L s a sop b top (r.cells.map (·.cell)) ∧ Marked ⟨.connected, true⟩ b r.cells a ∧ r.regionId = none := by
  obtain ⟨a, b, ha, hb, hr⟩ := find_cases h
  have hg := good_of (edpc := false) (sop := sop) (top := top) hf (by intro h; cases h) ha hb
  obtain ⟨e, st, -, -, -, -, -, -, h2, h3, h4⟩ := run_eq hg rfl hr
  exact ⟨a, b, holds_of ha, holds_of hb, h2, h3, h4⟩

/-- The stores that the router which stores Boost's routes can have after queries on the given slices, the latest first. -/
inductive Stored (L : Layout) : List DSlice → Cache → Prop where
  | empty : Stored L [] (fun _ => none)
  | query {ss cache s pick source sop target top o cache'} : Stored L ss cache → storedFind L pick cache s source sop target top = .ok (o, cache') → Stored L (s :: ss) cache'

theorem stored_cases {L pick cache s source sop target top o cache'} (h : storedFind L pick cache s source sop target top = .ok (o, cache')) :
    ∃ a b, s.cellById source = some a ∧ s.cellById target = some b ∧
      ((∃ r, cache ⟨a, sop, b, top⟩ = some r ∧ o = some r ∧ cache' = cache) ∨
       (cache ⟨a, sop, b, top⟩ = none ∧ find L pick s source sop target top = .ok o ∧
        ((o = none ∧ cache' = cache) ∨ ∃ r, o = some r ∧ cache' = upd cache ⟨a, sop, b, top⟩ (some r)))) := by
  unfold storedFind at h
  split at h
  next a b ha hb =>
    refine ⟨a, b, ha, hb, ?_⟩
    split at h
    next r hr => cases h; exact .inl ⟨r, hr, rfl, rfl⟩
    next hn =>
      obtain ⟨x, hx, h⟩ := Outcome.bind_eq_ok.1 h
      cases x with
      | none => cases h; exact .inr ⟨hn, hx, .inl ⟨rfl, rfl⟩⟩
      | some r => cases h; exact .inr ⟨hn, hx, .inr ⟨r, rfl, rfl⟩⟩
  next => cases h

theorem stored_valid {L ss cache} (h : Stored L ss cache) (hf : ∀ s ∈ ss, Fits L s) {k : Key} {r} (hk : cache k = some r) :
    ∃ s ∈ ss, Hop L s k.src k.srcOp k.tgt k.tgtOp (r.cells.map (·.cell)) := by
  induction h generalizing k r with
  | empty => cases hk
  | query _ hq ih =>
    rename_i s pick source sop target top o cache' _
    have ih' := fun {k r} hk => ih (fun s hs => hf s (by simp [hs])) (k := k) (r := r) hk
    obtain ⟨a, b, ha, hb, h1⟩ := stored_cases hq
    rcases h1 with ⟨_, _, _, rfl⟩ | ⟨_, hfind, ⟨_, rfl⟩ | ⟨r', rfl, rfl⟩⟩
    · obtain ⟨s', hs', h'⟩ := ih' hk; exact ⟨s', by simp [hs'], h'⟩
    · obtain ⟨s', hs', h'⟩ := ih' hk; exact ⟨s', by simp [hs'], h'⟩
    · by_cases hkk : k = ⟨a, sop, b, top⟩
      · subst hkk
        rw [upd_same] at hk; cases hk
        obtain ⟨a2, b2, ha2, hb2, hr⟩ := find_cases hfind
        rw [ha] at ha2; rw [hb] at hb2; cases ha2; cases hb2
        have hg := good_of (edpc := false) (sop := sop) (top := top) (hf s (by simp)) (by intro h; cases h) ha hb
        obtain ⟨e, st, -, -, -, -, -, -, h2, -⟩ := run_eq hg rfl hr
        exact ⟨s, by simp, h2⟩
      · rw [upd_other _ _ hkk] at hk
        obtain ⟨s', hs', h'⟩ := ih' hk; exact ⟨s', by simp [hs'], h'⟩

/-- C58 and C36, what holds when the routes found by Boost are stored: a route returned is as described by `Hop`, between the cells now holding the two patches, but in the slice of
this query or of an earlier one. -/
theorem c58_stored_partial {L ss cache s pick source sop target top r cache'} (h : Stored L ss cache) (hf : ∀ s' ∈ s :: ss, Fits L s')
    (hq : storedFind L pick cache s source sop target top = .ok (some r, cache')) :
    ∃ a b s', Holds s source a ∧ Holds s target b ∧ s' ∈ s :: ss ∧ Hop L s' a sop b top (r.cells.map (·.cell)) := by
  obtain ⟨a, b, ha, hb, h1⟩ := stored_cases hq
  have hk : cache' ⟨a, sop, b, top⟩ = some r := by
    rcases h1 with ⟨r', hr', he, rfl⟩ | ⟨_, _, ⟨he, _⟩ | ⟨r', he, rfl⟩⟩
    · cases he; exact hr'
    · cases he
    · cases he; exact upd_same _ _ _
  obtain ⟨s', hs', hh⟩ := stored_valid (.query h hq) hf hk
  exact ⟨a, b, s', holds_of ha, holds_of hb, hs', hh⟩

/-- C58, what holds: a route is returned if there is one as described by `Hop`, in particular if an admissible route has one
cell. -/
theorem c58_found_partial {L s source sop target top a b l} (pick : Pick) (hf : Fits L s) (ha : Names s source a) (hb : Names s target b) (h1 : sop = .X ∨ sop = .Z) (h2 : top = .X ∨ top = .Z)
    (hl : Hop L s a sop b top l) : ∃ r, find L pick s source sop target top = .ok (some r) := by
  have ha' := names_cellById ha
  have hb' := names_cellById hb
  have hg := good_of (edpc := false) (sop := sop) (top := top) hf (by intro h; cases h) ha' hb'
  have h3 : a ≠ b ∨ ∃ n, OnGrid L n ∧ Offers s b n top := by
    match l, hl with
    | [], ⟨h, _⟩ => exact .inl h
    | [c], ⟨h3, _, h4⟩ =>
      rcases h4 with h4 | ⟨h4, _⟩
      · exact .inr ⟨c, h3, h4⟩
      · exact .inl h4
    | [c, d], ⟨h3, _, _, _, _, h4, _⟩ => exact .inr ⟨c, h3, h4⟩
  obtain ⟨o, ho⟩ := run_ok hg rfl h1 h2 pick h3
  obtain ⟨e, st, he, ht, hd, hfr, -, h4⟩ := run_eq hg rfl ho
  cases o with
  | none => exact absurd h4 (reach hg he ht hd hfr hl)
  | some r => exact ⟨r, by unfold find; rw [ha', hb']; exact ho⟩

/-- An admissible route of one cell is as described by `Hop`. -/
theorem hop_of_admissible {L s a sop b top c} (h : Admissible L s false a sop b top [c]) : Hop L s a sop b top [c] :=
  ⟨h.inside c List.mem_cons_self, h.fromSrc c rfl, .inl (h.toTgt c rfl)⟩

/-- C58 fails for measuring Y: whatever the slice, a patch is never joined to itself on two sides of different type. -/
theorem c58_twist_wrong {L pick s source sop top r} (hf : Fits L s) (hs : ∃ a, Names s source a) (hne : sop ≠ top) : find L pick s source sop source top ≠ .ok (some r) := by
  intro h
  obtain ⟨c0, hc0⟩ := hs
  obtain ⟨a, b, ha, hb, hl, -⟩ := c58_route_partial hf h
  obtain rfl := hc0.2 a ha
  obtain rfl := hc0.2 b hb
  generalize r.cells.map (·.cell) = l at hl
  match l, hl with
  | [], ⟨h1, _⟩ => exact h1 rfl
  | [c], ⟨_, ⟨p, d, hp, hd, h1⟩, h2⟩ =>
    rcases h2 with ⟨p', d', hp', hd', h3⟩ | ⟨h2, _⟩
    · rw [hp] at hp'; cases hp'
      have : d = d' := by cases d <;> cases d' <;> simp only [Faces] at hd hd' <;> first | rfl | omega
      subst this
      rcases h1 with ⟨rfl, h1⟩ | ⟨rfl, h1⟩ <;> rcases h3 with ⟨rfl, h3⟩ | ⟨rfl, h3⟩
      · exact hne rfl
      · rw [h1] at h3; cases h3
      · rw [h1] at h3; cases h3
      · exact hne rfl
    · exact h2 rfl
  | [c, d], ⟨_, _, _, _, ⟨d1, h1⟩, ⟨_, d2, _, h2, _⟩, ⟨_, d3, _, h3, _⟩⟩ =>
    cases d1 <;> cases d2 <;> cases d3 <;> simp only [Faces] at h1 h2 h3 <;> omega

/-! ## Examples and counterexamples -/

/-- A queue that hands out the oldest vertex. -/
def oldest : Pick := fun _ _ _ => 0

/-- A slice of two rows with the patch 7 in the corner, the patch 8 on the given cell and further patches on others. -/
def nearSlice (c8 : Cell) (extra : List Cell) : DSlice :=
  { rows := 2, cols := 4,
    cells := fun c =>
      if c = ⟨0, 0⟩ then some { type := .qubit, activity := .none, id := some 7, bounds := ⟨⟨.smooth, false⟩, ⟨.smooth, false⟩, ⟨.rough, false⟩, ⟨.rough, false⟩⟩ }
      else if c = c8 then some { type := .qubit, activity := .none, id := some 8, bounds := ⟨⟨.smooth, false⟩, ⟨.smooth, false⟩, ⟨.rough, false⟩, ⟨.rough, false⟩⟩ }
      else if c ∈ extra then some { type := .qubit, activity := .none, id := some 9, bounds := .all ⟨.smooth, false⟩ }
      else none }

theorem near_fits (c8 : Cell) (extra : List Cell) : Fits gapLayout (nearSlice c8 extra) := by
  unfold Fits gapLayout nearSlice; simp

theorem near_names (c8 : Cell) (h : c8 = ⟨0, 2⟩ ∨ c8 = ⟨0, 3⟩) : Names (nearSlice c8 []) 7 ⟨0, 0⟩ ∧ Names (nearSlice c8 []) 8 c8 := by
  have h0 : c8 ≠ ⟨0, 0⟩ := by rcases h with rfl | rfl <;> decide
  refine ⟨⟨⟨by decide, by simp [nearSlice], by decide, by simp [nearSlice], _, by unfold nearSlice; dsimp only; rw [if_pos rfl], rfl⟩, ?_⟩, ⟨⟨?_, ?_, ?_, ?_, _, by unfold nearSlice; dsimp only; rw [if_neg h0, if_pos rfl], rfl⟩, ?_⟩⟩
  · rintro c ⟨_, _, _, _, p, hp, hi⟩
    simp only [nearSlice] at hp
    split at hp
    · assumption
    · split at hp
      · cases hp; cases hi
      · simp at hp
  · rcases h with rfl | rfl <;> decide
  · rcases h with rfl | rfl <;> simp [nearSlice]
  · rcases h with rfl | rfl <;> decide
  · rcases h with rfl | rfl <;> simp [nearSlice]
  · rintro c ⟨_, _, _, _, p, hp, hi⟩
    simp only [nearSlice] at hp
    split at hp
    · cases hp; cases hi
    · split at hp
      · assumption
      · simp at hp

/-- c58_route_partial, c58_found_partial: one free cell between the patches. -/
example : cellsOf (find gapLayout oldest (nearSlice ⟨0, 2⟩ []) 7 .X 8 .X) = some (some [⟨0, 1⟩]) ∧ Fits gapLayout (nearSlice ⟨0, 2⟩ []) ∧
    Names (nearSlice ⟨0, 2⟩ []) 7 ⟨0, 0⟩ ∧ Names (nearSlice ⟨0, 2⟩ []) 8 ⟨0, 2⟩ ∧ Hop gapLayout (nearSlice ⟨0, 2⟩ []) ⟨0, 0⟩ .X ⟨0, 2⟩ .X [⟨0, 1⟩] := by
  refine ⟨by decide +kernel, near_fits _ _, (near_names _ (.inl rfl)).1, (near_names _ (.inl rfl)).2, ⟨by unfold OnGrid gapLayout; decide, ?_, .inl ?_⟩⟩
  · exact ⟨_, .right, rfl, ⟨rfl, rfl⟩, .inl ⟨rfl, rfl⟩⟩
  · exact ⟨_, .left, rfl, ⟨rfl, rfl⟩, .inl ⟨rfl, rfl⟩⟩

/-- C58 fails: with two free cells between the patches no route is found, although there is one, which the default search
finds. -/
theorem c58_missed : cellsOf (find gapLayout oldest (nearSlice ⟨0, 3⟩ []) 7 .X 8 .X) = some none ∧
    Admissible gapLayout (nearSlice ⟨0, 3⟩ []) false ⟨0, 0⟩ .X ⟨0, 3⟩ .X [⟨0, 2⟩, ⟨0, 1⟩] ∧
    cellsOf (Router.find gapLayout pickMin false false (nearSlice ⟨0, 3⟩ []) 7 .X 8 .X) = some (some [⟨0, 2⟩, ⟨0, 1⟩]) := by
  refine ⟨by decide +kernel, ⟨⟨⟨.left, by simp [Faces]⟩, ⟨.left, by simp [Faces]⟩, ⟨.left, by simp [Faces]⟩, trivial⟩, ?_, ?_, by simp, ?_, ?_⟩, by decide +kernel⟩
  · intro c hc; simp at hc; rcases hc with rfl | rfl <;> simp [OnGrid, gapLayout]
  · intro c hc; simp at hc; rcases hc with rfl | rfl <;> exact .inl rfl
  · intro c hc; simp at hc; subst hc; exact ⟨_, .right, rfl, by simp [Faces], .inl ⟨rfl, rfl⟩⟩
  · intro c hc; simp at hc; subst hc; exact ⟨_, .left, rfl, by simp [Faces], .inl ⟨rfl, rfl⟩⟩

/-- The hypotheses of `c58_stored_partial` are met by a second query, which is answered from the store although a patch has come to lie on the route meanwhile. -/
example : ∃ r cache, storedFind gapLayout oldest (fun _ => none) (nearSlice ⟨0, 2⟩ []) 7 .X 8 .X = .ok (some r, cache) ∧
    storedFind gapLayout oldest cache (nearSlice ⟨0, 2⟩ [⟨0, 1⟩]) 7 .X 8 .X = .ok (some r, cache) ∧ Stored gapLayout [nearSlice ⟨0, 2⟩ []] cache ∧
    (∀ s' ∈ [nearSlice ⟨0, 2⟩ [⟨0, 1⟩], nearSlice ⟨0, 2⟩ []], Fits gapLayout s') ∧ r.cells.map (·.cell) = [⟨0, 1⟩] ∧ (nearSlice ⟨0, 2⟩ [⟨0, 1⟩]).isFree ⟨0, 1⟩ = .ok false :=
  ⟨_, _, rfl, rfl, .query .empty (show storedFind gapLayout oldest (fun _ => none) (nearSlice ⟨0, 2⟩ []) 7 .X 8 .X = _ from rfl),
    by intro s hs; simp only [List.mem_cons, List.not_mem_nil, or_false] at hs; rcases hs with rfl | rfl <;> exact near_fits _ _, rfl, rfl⟩

/-- C58 fails: the route returned crosses the patch 9. -/
theorem c58_crosses : cellsOf (find gapLayout oldest (nearSlice ⟨0, 3⟩ [⟨0, 2⟩]) 7 .X 8 .X) = some (some [⟨0, 2⟩, ⟨0, 1⟩]) ∧
    ∃ p, (nearSlice ⟨0, 3⟩ [⟨0, 2⟩]).cells ⟨0, 2⟩ = some p ∧ p.id = some 9 := by
  exact ⟨by decide +kernel, _, rfl, rfl⟩

/-- C58 fails: X is asked for, and the route meets the patch 8 on its smooth upper side; and for two patches side by side the
empty route is returned although Z is asked for on a rough side. -/
theorem c58_side : cellsOf (find gapLayout oldest (nearSlice ⟨1, 1⟩ []) 7 .X 8 .X) = some (some [⟨0, 1⟩]) ∧
    ¬ Offers (nearSlice ⟨1, 1⟩ []) ⟨1, 1⟩ ⟨0, 1⟩ .X ∧
    cellsOf (find gapLayout oldest (nearSlice ⟨0, 1⟩ []) 7 .X 8 .Z) = some (some []) ∧
    ¬ Offers (nearSlice ⟨0, 1⟩ []) ⟨0, 1⟩ ⟨0, 0⟩ .Z := by
  refine ⟨by decide +kernel, ?_, by decide +kernel, ?_⟩
  · rintro ⟨p, d, hp, hd, h⟩
    cases hp
    cases d <;> simp [Faces] at hd
    revert h; decide
  · rintro ⟨p, d, hp, hd, h⟩
    cases hp
    cases d <;> simp [Faces] at hd
    revert h; decide

/-- C58 fails: on a lattice of one row, joining the patch to itself through a side that faces outwards reads the predecessor of a
vertex the graph does not have. -/
theorem c58_no_vertex :
    find { gapLayout with furthest := ⟨0, 3⟩ } oldest { nearSlice ⟨0, 3⟩ [] with rows := 1 } 7 .X 7 .Z = .ub ∧
    Fits { gapLayout with furthest := ⟨0, 3⟩ } { nearSlice ⟨0, 3⟩ [] with rows := 1 } := by
  exact ⟨by rfl, by unfold Fits gapLayout nearSlice; simp⟩

/-- The effect on the pipelines: placing the route of `c58_crosses` throws, where with the default search the measurement waits. -/
theorem c58_code_throws :
    let ctx : Ctx Unit := { localInstrs := false, twists := false, genIds := true, asserts := true, layout := gapLayout, router := boostRouter gapLayout oldest }
    Apply.apply ctx ⟨nearSlice ⟨0, 3⟩ [⟨0, 2⟩], (), 1⟩ { op := .multi [(7, .X), (8, .X)] false none } = .throws ∧
    ∃ r, Apply.apply { ctx with router := dpRouter gapLayout pickMin false false } ⟨nearSlice ⟨0, 3⟩ [⟨0, 2⟩], (), 1⟩ { op := .multi [(7, .X), (8, .X)] false none } = .ok r ∧
      r.err = true := by
  refine ⟨by rfl, _, by rfl, by rfl⟩

end Verif.Boost.Spec
