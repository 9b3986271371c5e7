import Verif.Render.Supports

/-!
C97: the reactions drawn at the nodes (`analysis.py` 1032-1061).
-/

set_option linter.unusedSectionVars false
set_option linter.unusedSimpArgs false

namespace PyCBA

variable {K : Type*} [Field K] [LinearOrder K] [IsStrictOrderedRing K]

/-- What the ends of the members that meet at node `j` exert on it in a completed analysis
(`c = 0`: vertical, `c = 1`: moment): the support has to provide it. -/
def BeamDef.nodeForce (b : BeamDef K) (res : Result K) (j : ℕ) (c : Fin 2) : K :=
  (if 0 < j then res.fmbr (j - 1) ⟨2 + c, by omega⟩ else 0)
    + if j < b.members.length then res.fmbr j ⟨c, by omega⟩ else 0

theorem dealReactions_ok (r f h : ℕ → K) (l : List ℕ) :
    dealReactions (l.map r) ((l.filter fun i => r i < 0).map f) ((l.filter fun i => 0 < r i).map h)
      = .ok (l.map fun i => if r i < 0 then f i else if 0 < r i then h i else 0) := by
  induction l with
  | nil => rfl
  | cons i l ih =>
    rcases lt_trichotomy (r i) 0 with g | g | g
    · simp [dealReactions, g, not_lt.2 g.le, ih]
    · simp [dealReactions, g, ih]
    · simp [dealReactions, g, not_lt.2 g.le, ih]

theorem nodeDict_mem (full : List K) (c j : ℕ) (v : K) :
    (j, v) ∈ nodeDict full c ↔
      j < full.length / 2 ∧ v = full.getD (2 * j + c) 0 ∧ 1 / 10 ^ 6 < |v| := by
  unfold nodeDict
  simp only [List.mem_map, List.mem_filter, List.mem_range, decide_eq_true_eq, Prod.mk.injEq]
  constructor
  · rintro ⟨n, ⟨h1, h2⟩, rfl, rfl⟩
    exact ⟨h1, rfl, h2⟩
  · rintro ⟨h1, rfl, h2⟩
    exact ⟨j, ⟨h1, h2⟩, rfl, rfl⟩

theorem nodeDict_nodup (full : List K) (c : ℕ) : ((nodeDict full c).map Prod.fst).Nodup := by
  unfold nodeDict
  rw [List.map_map]
  have : (Prod.fst ∘ fun n => (n, full.getD (2 * n + c) 0)) = (id : ℕ → ℕ) := rfl
  rw [this, List.map_id]
  exact List.nodup_range.filter _

/-- **C97**: in a completed analysis in which displacements are prescribed at rigid supports
only, the reactions drawn are the forces and moments that balance the member ends at the
nodes, except for those of at most `1e-6`: `C97_small_violation`.  For displacements
prescribed elsewhere: `C97_prescribed_violation`. -/
theorem C97_nodes_partial (b : BeamDef K) (stable : System K → Bool) (solve : Solver K)
    (hs : solve.Sound) (res : Result K) (h : b.analyze stable solve = .ok res)
    (hlen : b.restraints.length = 2 * b.members.length + 2)
    (hpr : ∀ p, b.presc.getD p none ≠ none → b.restraints.getD p 0 < 0) :
    ∃ vert mom, reactionsByNode b.restraints res = .ok (vert, mom) ∧
      (∀ j v, (j, v) ∈ vert ↔ j ≤ b.members.length ∧ v = b.nodeForce res j 0 ∧ 1 / 10 ^ 6 < |v|) ∧
      (∀ j v, (j, v) ∈ mom ↔ j ≤ b.members.length ∧ v = b.nodeForce res j 1 ∧ 1 / 10 ^ 6 < |v|) ∧
      (vert.map Prod.fst).Nodup ∧ (mom.map Prod.fst).Nodup := by
  obtain ⟨s, h1, h2⟩ := BeamDef.analyze_ok h
  obtain ⟨hn, -, -, hr, hp, -, -⟩ := BeamDef.system_ok h1
  obtain ⟨⟨-, hf⟩, er, ers, hfm, -⟩ := System.analyze_ok hs h2
  have hN : s.N = b.restraints.length := by rw [hlen, System.N, hn]
  have hmap : b.restraints = (List.range s.N).map s.r := by
    apply List.ext_getElem
    · rw [List.length_map, List.length_range, hN]
    · intro i h1 h2
      rw [List.getElem_map, List.getElem_range, hr, List.getD_eq_getElem _ _ h1]
  have hfull := dealReactions_ok s.r (s.residual res.d) (fun i => -s.r i * res.d i) (List.range s.N)
  have hval : ∀ j ≤ b.members.length, ∀ c : Fin 2,
      ((List.range s.N).map fun i => if s.r i < 0 then s.residual res.d i
        else if 0 < s.r i then -s.r i * res.d i else 0).getD (2 * j + c) 0 = b.nodeForce res j c := by
    intro j hj c
    have hc := c.isLt
    have hlt : 2 * j + (c : ℕ) < s.N := by rw [hN, hlen]; omega
    rw [List.getD_eq_getElem _ _ (by rw [List.length_map, List.length_range]; exact hlt),
      List.getElem_map, List.getElem_range]
    have hres := s.residual_node res.d j (by omega) c
    unfold BeamDef.nodeForce
    rw [hfm, ← hn]
    by_cases h3 : s.r (2 * j + c) < 0
    · rw [if_pos h3, hres, System.spring, if_neg (not_lt.2 h3.le), zero_mul, add_zero]
    · rw [if_neg h3]
      have hnone : s.constr (2 * j + c) = none := by
        have hp0 : s.presc (2 * j + c) = none := by
          by_contra hne
          rw [hp] at hne
          exact h3 (by rw [hr]; exact hpr _ hne)
        simp [System.constr, hp0, h3]
      have h0 := hf _ hlt hnone
      rw [hres] at h0
      by_cases h4 : 0 < s.r (2 * j + c)
      · rw [if_pos h4]
        rw [System.spring, if_pos h4] at h0
        linear_combination -h0
      · rw [if_neg h4]
        rw [System.spring, if_neg h4, zero_mul, add_zero] at h0
        exact h0.symm
  have hl2 : ((List.range s.N).map fun i => if s.r i < 0 then s.residual res.d i
        else if 0 < s.r i then -s.r i * res.d i else 0).length / 2 = b.members.length + 1 := by
    rw [List.length_map, List.length_range, hN, hlen]
    omega
  generalize ((List.range s.N).map fun i => if s.r i < 0 then s.residual res.d i
        else if 0 < s.r i then -s.r i * res.d i else 0) = full at hval hfull hl2
  refine ⟨nodeDict full 0, nodeDict full 1, ?_, ?_, ?_, nodeDict_nodup _ _, nodeDict_nodup _ _⟩
  · unfold reactionsByNode
    rw [hmap, er, ers]
    unfold System.reactions System.springForces
    rw [hfull]
  · intro j v
    rw [nodeDict_mem, hl2]
    constructor
    · rintro ⟨a1, a2, a3⟩
      exact ⟨by omega, by rw [a2]; exact hval j (by omega) 0, a3⟩
    · rintro ⟨a1, a2, a3⟩
      exact ⟨by omega, by rw [a2]; exact (hval j a1 0).symm, a3⟩
  · intro j v
    rw [nodeDict_mem, hl2]
    constructor
    · rintro ⟨a1, a2, a3⟩
      exact ⟨by omega, by rw [a2]; exact hval j (by omega) 1, a3⟩
    · rintro ⟨a1, a2, a3⟩
      exact ⟨by omega, by rw [a2]; exact (hval j a1 1).symm, a3⟩

/-- **C97 fails** in units in which the reactions are small: the reaction at the prop of a
propped cantilever, `9e-7`, is not drawn. -/
theorem C97_small_violation :
    ∃ (b : BeamDef ℚ) (solve : Solver ℚ) (res : Result ℚ), solve.Sound ∧
      b.analyze (fun _ => true) solve = .ok res ∧ b.nodeForce res 1 0 = 9 / 10 ^ 7 ∧
      ∃ d, reactionsByNode b.restraints res = .ok d ∧ ∀ v, (1, v) ∉ d.1 := by
  obtain ⟨res, h1, h2⟩ := ok_of_map
    (x := (exBeam (-1) none [⟨1, 1, [12 / 10 ^ 7]⟩]).analyze (fun _ => true)
      (trySolver fun p => [0, 0, 0, 1 / 3 / 10 ^ 7].getD p 0))
    (f := fun res => ((exBeam (-1) none []).nodeForce res 1 0,
      (reactionsByNode (exBeam (-1) none []).restraints res).toOption.map
        fun d => d.1.map Prod.fst))
    (y := (9 / 10 ^ 7, some [0])) (by decide +kernel)
  obtain ⟨h3, h4⟩ := Prod.mk.inj h2
  obtain ⟨d, h5, h6⟩ := Option.map_eq_some_iff.1 h4
  refine ⟨_, _, res, trySolver_sound _, h1, h3, d, ok_of_toOption h5, ?_⟩
  intro v hv
  have := List.mem_map_of_mem (f := Prod.fst) hv
  rw [h6] at this
  simp at this

/-- **C97 fails** for a displacement prescribed at a degree of freedom without support: the
force that imposes it is not drawn. -/
theorem C97_prescribed_violation :
    ∃ (b : BeamDef ℚ) (solve : Solver ℚ) (res : Result ℚ), solve.Sound ∧
      b.analyze (fun _ => true) solve = .ok res ∧ b.nodeForce res 1 0 = 9 / 4 ∧
      ∃ d, reactionsByNode b.restraints res = .ok d ∧ ∀ v, (1, v) ∉ d.1 := by
  obtain ⟨res, h1, h2⟩ := ok_of_map
    (x := (exBeam 0 (some 1) []).analyze (fun _ => true)
      (trySolver fun p => [0, 0, 1, 3 / 4].getD p 0))
    (f := fun res => ((exBeam 0 (some 1) []).nodeForce res 1 0,
      (reactionsByNode (exBeam 0 (some 1) []).restraints res).toOption.map
        fun d => d.1.map Prod.fst))
    (y := (9 / 4, some [0])) (by decide +kernel)
  obtain ⟨h3, h4⟩ := Prod.mk.inj h2
  obtain ⟨d, h5, h6⟩ := Option.map_eq_some_iff.1 h4
  refine ⟨_, _, res, trySolver_sound _, h1, h3, d, ok_of_toOption h5, ?_⟩
  intro v hv
  have := List.mem_map_of_mem (f := Prod.fst) hv
  rw [h6] at this
  simp at this

-- C97: a propped cantilever under a uniform load of 12: reactions 15 and 9, clamping moment 6
example : ∃ (solve : Solver ℚ) (res : Result ℚ), solve.Sound ∧
    (exBeam (-1) none [⟨1, 1, [12]⟩]).analyze (fun _ => true) solve = .ok res ∧
    (reactionsByNode (exBeam (-1) none []).restraints res).toOption = some ([(0, 15), (1, 9)], [(0, 6)]) ∧
    (exBeam (-1) none [⟨1, 1, [12]⟩]).restraints.length = 4 := by
  obtain ⟨res, h1, h2⟩ := ok_of_map
    (x := (exBeam (-1) none [⟨1, 1, [12]⟩]).analyze (fun _ => true)
      (trySolver fun p => [0, 0, 0, 1 / 3].getD p 0))
    (f := fun res => (reactionsByNode (exBeam (-1) none []).restraints res).toOption)
    (y := some ([(0, 15), (1, 9)], [(0, 6)])) (by decide +kernel)
  exact ⟨_, res, trySolver_sound _, h1, h2, rfl⟩

end PyCBA
