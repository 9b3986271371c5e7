import Verif.Foundation.Model
import Verif.Modal.Condense

/-!
C64: the foundation super-element.  Condensation, loads on the pieces, recovery.
-/

set_option linter.unusedSectionVars false
set_option linter.unusedSimpArgs false

namespace PyCBA

open Matrix Finset

variable {K : Type*} [Field K] [LinearOrder K] [IsStrictOrderedRing K]

/-- The mesh inside a foundation member as a structure of its own, without supports:
`n` pieces in bending on their foundation, with the fixed-end forces `refs`. -/
def Found.sys (F : Found K) (refs : List (Vec4 K)) : System K where
  n := F.n
  kb := fun _ => kEbeam F.EI F.h + mConsistent F.kf F.h
  ref := fun e => refs.getD e 0
  r := fun _ => 0
  presc := fun _ => none

theorem Found.sys_N (F : Found K) (refs : List (Vec4 K)) : (F.sys refs).N = F.ndof := by
  simp only [System.N, Found.sys, Found.ndof]
  ring

theorem Found.stiff_eq (F : Found K) (refs : List (Vec4 K)) : F.stiff = (F.sys refs).assemble := by
  funext p q
  rw [System.assemble_eq, Found.stiff, blocks_foldl]
  simp [Found.sys, Found.ke]

theorem rfull_eq (refs : List (Vec4 K)) (p : ℕ) :
    rfull refs p = ∑ e ∈ range refs.length, blockVec (2 * e) (refs.getD e 0) p := by
  unfold rfull
  generalize hg : refs.length = m
  clear hg
  induction m with
  | zero => simp
  | succ m ih => rw [List.range_succ, List.foldl_append, Finset.sum_range_succ, ← ih]; rfl

theorem Found.residual_eq (F : Found K) (refs : List (Vec4 K)) (hl : refs.length = F.n) (d : ℕ → K)
    (p : ℕ) : (F.sys refs).residual d p = mulN F.ndof F.stiff d p + rfull refs p := by
  rw [System.residual, System.forces_eq, rfull_eq, hl, Found.sys_N, ← Found.stiff_eq]
  simp [Found.sys]

theorem Found.ret_eq (F : Found K) : F.ret = ![0, 1, 2 * F.n, 2 * F.n + 1] := by
  simp only [Found.ret, Found.ndof]
  congr 2

theorem Found.ret_lt (F : Found K) (hn : 0 < F.n) (a : Fin 4) : F.ret a < F.ndof := by
  rw [Found.ret_eq, Found.ndof]
  fin_cases a <;> simp <;> omega

theorem Found.ret_inj (F : Found K) (hn : 0 < F.n) : Function.Injective F.ret := by
  rw [Found.ret_eq]
  intro a b h
  fin_cases a <;> fin_cases b <;> simp at h ⊢ <;> omega

theorem Found.cond_eq (F : Found K) :
    F.cond = (List.range F.ndof).filter fun p => decide (∀ a, p ≠ F.ret a) := rfl

theorem Found.cond_nodup (F : Found K) : F.cond.Nodup := List.Nodup.filter _ List.nodup_range

theorem Found.mem_cond (F : Found K) (p : ℕ) : p ∈ F.cond ↔ p < F.ndof ∧ ∀ a, p ≠ F.ret a := by
  simp [Found.cond]

theorem Found.sum_split (F : Found K) (hn : 0 < F.n) (f : ℕ → K) :
    ∑ p ∈ range F.ndof, f p = ∑ a, f (F.ret a) + ∑ c : Fin F.cond.length, f F.cond[c] := by
  have h1 := filter_range_sum F.ndof (fun p => ∀ a, p ≠ F.ret a) f
  rw [← Found.cond_eq] at h1
  have h2 : ∑ a, f (F.ret a)
      = ∑ p ∈ range F.ndof, if ∀ a, p ≠ F.ret a then 0 else f p := by
    have : ∀ a, f (F.ret a) = ∑ p ∈ range F.ndof, if p = F.ret a then f p else 0 := by
      intro a
      rw [Finset.sum_ite_eq', if_pos (Finset.mem_range.2 (F.ret_lt hn a))]
    rw [Finset.sum_congr rfl fun a _ => this a, Finset.sum_comm]
    apply Finset.sum_congr rfl
    intro p _
    split
    · rename_i h
      exact Finset.sum_eq_zero fun a _ => if_neg (h a)
    · rename_i h
      push Not at h
      obtain ⟨a, ha⟩ := h
      rw [Finset.sum_eq_single a, if_pos ha]
      · intro b _ hb
        rw [if_neg]
        intro hpb
        exact hb (F.ret_inj hn (hpb.symm.trans ha))
      · simp
  simp only [Fin.getElem_fin]
  rw [Fin.sum_univ_fun_getElem F.cond f, h1, h2, ← Finset.sum_add_distrib]
  apply Finset.sum_congr rfl
  intro p _
  split <;> simp

theorem FoundEl.mesh_ret (E : FoundEl K) (hn : 0 < E.n) (refs : List (Vec4 K)) (dr : Vec4 K)
    (a : Fin 4) : E.mesh refs dr (E.ret a) = dr a := by
  have h := E.ret_inj hn
  have hne : ∀ a b : Fin 4, a ≠ b → E.ret a ≠ E.ret b := fun a b hab he => hab (h he)
  unfold FoundEl.mesh
  fin_cases a
  · simp
  · simp [hne 1 0 (by decide)]
  · simp [hne 2 0 (by decide), hne 2 1 (by decide)]
  · simp [hne 3 0 (by decide), hne 3 1 (by decide), hne 3 2 (by decide)]

theorem FoundEl.mesh_cond (E : FoundEl K) (refs : List (Vec4 K)) (dr : Vec4 K)
    (c : Fin E.cond.length) : E.mesh refs dr E.cond[c] = E.dc refs dr c := by
  have hm := ((E.mem_cond _).1 (List.getElem_mem c.isLt)).2
  unfold FoundEl.mesh
  simp only [Fin.getElem_fin]
  rw [if_neg (hm 0), if_neg (hm 1), if_neg (hm 2), if_neg (hm 3)]
  exact spread_mem E.cond_nodup _ c

theorem FoundEl.mulN_mesh (E : FoundEl K) (hn : 0 < E.n) (refs : List (Vec4 K)) (dr : Vec4 K)
    (p : ℕ) : mulN E.ndof E.stiff (E.mesh refs dr) p
      = ∑ a, E.stiff p (E.ret a) * dr a + ∑ c, E.stiff p E.cond[c] * E.dc refs dr c := by
  rw [mulN, E.sum_split hn]
  congr 1
  · exact Finset.sum_congr rfl fun a _ => by rw [E.mesh_ret hn]
  · exact Finset.sum_congr rfl fun c _ => by rw [E.mesh_cond]

/-- The inverse belongs to the matrix it was made from. -/
def FoundEl.Ok (E : FoundEl K) : Prop := E.Kcc * E.inv = 1

theorem Found.build_ok {F : Found K} {inv : Inverter K} (hS : inv.Sound) {E : FoundEl K}
    (h : F.build inv = .ok E) : E.toFound = F ∧ E.Ok := by
  unfold Found.build at h
  split at h
  · cases h
  · rename_i X hX
    cases h
    exact ⟨rfl, hS _ _ _ hX⟩

theorem FoundEl.row_cond (E : FoundEl K) (hn : 0 < E.n) (ho : E.Ok) (refs : List (Vec4 K))
    (dr : Vec4 K) (c : Fin E.cond.length) :
    mulN E.ndof E.stiff (E.mesh refs dr) E.cond[c] + rfull refs E.cond[c] = 0 := by
  rw [E.mulN_mesh hn]
  have h1 : ∑ a, E.stiff E.cond[c] (E.ret a) * dr a = (E.Kcr *ᵥ dr) c := rfl
  have h2 : ∑ c', E.stiff E.cond[c] E.cond[c'] * E.dc refs dr c' = (E.Kcc *ᵥ E.dc refs dr) c := rfl
  have h3 : E.Kcc *ᵥ E.dc refs dr = (fun c => -rfull refs E.cond[c]) - E.Kcr *ᵥ dr := by
    rw [FoundEl.dc, mulVec_mulVec, ho, one_mulVec]
  rw [h1, h2, h3]
  simp

theorem FoundEl.row_ret (E : FoundEl K) (hn : 0 < E.n) (refs : List (Vec4 K)) (dr : Vec4 K)
    (a : Fin 4) : mulN E.ndof E.stiff (E.mesh refs dr) (E.ret a) + rfull refs (E.ret a)
      = (E.k *ᵥ dr + E.refOf refs) a := by
  rw [E.mulN_mesh hn]
  have h1 : ∑ b, E.stiff (E.ret a) (E.ret b) * dr b = (E.Krr *ᵥ dr) a := rfl
  have h2 : ∑ c', E.stiff (E.ret a) E.cond[c'] * E.dc refs dr c' = (E.Krc *ᵥ E.dc refs dr) a := rfl
  have h3 : E.Krc *ᵥ E.dc refs dr
      = -(E.Krc *ᵥ (E.inv *ᵥ fun c => rfull refs E.cond[c])) - (E.Krc * E.inv * E.Kcr) *ᵥ dr := by
    have : (fun c : Fin E.cond.length => -rfull refs E.cond[c])
        = -(fun c : Fin E.cond.length => rfull refs E.cond[c]) := rfl
    rw [FoundEl.dc, this, mulVec_sub, mulVec_sub, mulVec_neg, mulVec_neg, mulVec_mulVec,
      mulVec_mulVec, mulVec_mulVec]
  rw [h1, h2, h3, FoundEl.k, FoundEl.refOf, sub_mulVec]
  simp only [Pi.add_apply, Pi.sub_apply, Pi.neg_apply]
  ring

/-- **C64**, recovery: for any number of pieces, loads and end displacements `dr`, the
recovered mesh displacements agree with `dr` at the ends, every node inside the member
is in equilibrium (the pieces meeting there, their loads and foundation included), and
the forces the mesh needs at its ends are exactly the end forces `k dr + ref` of the
condensed member. -/
theorem C64_mesh_equilibrium (F : Found K) (hn : 0 < F.n) (inv : Inverter K) (hS : inv.Sound)
    (E : FoundEl K) (hE : F.build inv = .ok E) (refs : List (Vec4 K)) (hl : refs.length = F.n)
    (dr : Vec4 K) :
    (∀ a, E.mesh refs dr (![0, 1, 2 * F.n, 2 * F.n + 1] a) = dr a) ∧
    (∀ j, 0 < j → j < F.n → ∀ c : Fin 2,
      (F.sys refs).endForces (E.mesh refs dr) (j - 1) ⟨2 + c, by omega⟩
        + (F.sys refs).endForces (E.mesh refs dr) j ⟨c, by omega⟩ = 0) ∧
    (∀ c : Fin 2, (F.sys refs).endForces (E.mesh refs dr) 0 ⟨c, by omega⟩
      = (E.k *ᵥ dr + E.refOf refs) ⟨c, by omega⟩) ∧
    ∀ c : Fin 2, (F.sys refs).endForces (E.mesh refs dr) (F.n - 1) ⟨2 + c, by omega⟩
      = (E.k *ᵥ dr + E.refOf refs) ⟨2 + c, by omega⟩ := by
  obtain ⟨rfl, ho⟩ := Found.build_ok hS hE
  have hsp : ∀ p, (E.sys refs).spring p = 0 := by
    intro p
    simp [System.spring, Found.sys]
  have node := fun j hj c => (E.sys refs).residual_node (E.mesh refs dr) j hj c
  have hsn : (E.sys refs).n = E.n := rfl
  refine ⟨fun a => by rw [← Found.ret_eq]; exact E.mesh_ret hn refs dr a, ?_, ?_, ?_⟩
  · intro j h0 hj c
    have h := node j (by omega) c
    rw [if_pos h0, if_pos (by omega), hsp, zero_mul, add_zero] at h
    rw [← h, E.residual_eq refs hl]
    have hc := c.isLt
    have hm : 2 * j + (c : ℕ) ∈ E.cond := by
      rw [Found.mem_cond, Found.ret_eq, Found.ndof]
      refine ⟨by omega, fun a => ?_⟩
      fin_cases a <;> simp <;> omega
    obtain ⟨k, hk, he⟩ := List.mem_iff_getElem.1 hm
    have := E.row_cond hn ho refs dr ⟨k, hk⟩
    simp only [Fin.getElem_fin] at this
    rwa [he] at this
  · intro c
    have h := node 0 (by omega) c
    rw [if_neg (by omega), if_pos (by omega), hsp, zero_mul, add_zero, zero_add] at h
    rw [← h, E.residual_eq refs hl]
    have := E.row_ret hn refs dr ⟨c, by omega⟩
    rw [← this, Found.ret_eq]
    rcases c with ⟨c, hc⟩
    interval_cases c <;> rfl
  · intro c
    have h := node E.n le_rfl c
    rw [if_pos hn, if_neg (by omega), hsp, zero_mul, add_zero, add_zero] at h
    rw [← h, E.residual_eq refs hl]
    have := E.row_ret hn refs dr ⟨2 + c, by omega⟩
    rw [← this, Found.ret_eq]
    rcases c with ⟨c, hc⟩
    interval_cases c <;> rfl

/-! ### Symmetry and energy -/

theorem Found.h_pos {F : Found K} (hn : 0 < F.n) (hL : 0 < F.L) : 0 < F.h :=
  div_pos hL (by exact_mod_cast hn)

theorem Found.ke_symm (F : Found K) (hh : F.h ≠ 0) :
    (kEbeam F.EI F.h + mConsistent F.kf F.h)ᵀ = kEbeam F.EI F.h + mConsistent F.kf F.h := by
  rw [transpose_add, mConsistent_symm, kEbeam_eq _ hh]
  congr 1
  ext p q
  fin_cases p <;> fin_cases q <;> simp [kFF]

theorem energy_add (A B : Mat4 K) (d : Vec4 K) : energy (A + B) d = energy A d + energy B d := by
  simp only [energy, add_mulVec, dotProduct_add]

theorem Found.ke_pos {F : Found K} (hn : 0 < F.n) (hL : 0 < F.L) (hE : 0 < F.EI) (hk : 0 < F.kf)
    (d : Vec4 K) : 0 ≤ energy (kEbeam F.EI F.h + mConsistent F.kf F.h) d ∧
      (energy (kEbeam F.EI F.h + mConsistent F.kf F.h) d = 0 → d = 0) := by
  have hh := F.h_pos hn hL
  obtain ⟨h1, h2⟩ := mConsistent_pos hk hh d
  have h3 := kFF_nonneg hE hh d
  rw [energy_add, kEbeam_eq _ hh.ne']
  exact ⟨by linarith, fun h => h2 (by linarith)⟩

theorem Found.stiff_symm (F : Found K) (hh : F.h ≠ 0) (p q : ℕ) : F.stiff p q = F.stiff q p := by
  rw [F.stiff_eq [], System.assemble_eq, System.assemble_eq]
  congr 1
  · apply Finset.sum_congr rfl
    intro i _
    have hk := F.ke_symm hh
    have : ∀ a b, (F.sys []).kb i a b = (F.sys []).kb i b a := by
      intro a b
      change (kEbeam F.EI F.h + mConsistent F.kf F.h) a b = _
      rw [← hk]
      rfl
    simp only [blockVec_eq_sum]
    have e : ∀ p q : ℕ, (∑ a : Fin 4, if p = 2 * i + a then
        ∑ b : Fin 4, if q = 2 * i + b then (F.sys []).kb i a b else 0 else 0)
        = ∑ a : Fin 4, ∑ b : Fin 4, if p = 2 * i + a ∧ q = 2 * i + b then (F.sys []).kb i a b else 0 := by
      intro p q
      apply Finset.sum_congr rfl
      intro a _
      split
      · rename_i h
        simp [h]
      · rename_i h
        simp [h]
    rw [e, e, Finset.sum_comm]
    apply Finset.sum_congr rfl
    intro a _
    apply Finset.sum_congr rfl
    intro b _
    rw [this b a]
    simp only [and_comm]
  · simp only [Found.sys]
    simp

theorem FoundEl.energy_eq (E : FoundEl K) (hn : 0 < E.n) (ho : E.Ok) (dr : Vec4 K) :
    energy E.k dr = ∑ e ∈ range E.n,
      energy (kEbeam E.EI E.h + mConsistent E.kf E.h) (elemVec (E.mesh [] dr) e) := by
  have h1 := (E.sys []).totalEnergy_eq (E.mesh [] dr)
  have h2 : (E.sys []).totalEnergy (E.mesh [] dr) = ∑ e ∈ range E.n,
      energy (kEbeam E.EI E.h + mConsistent E.kf E.h) (elemVec (E.mesh [] dr) e) := by
    simp [System.totalEnergy, Found.sys, System.spring]
  rw [← h2, h1, Found.sys_N, ← Found.stiff_eq, E.sum_split hn]
  have r0 : ∀ p, rfull ([] : List (Vec4 K)) p = 0 := fun p => rfl
  have z : ∑ c : Fin E.cond.length, E.mesh [] dr E.cond[c]
      * mulN E.ndof E.stiff (E.mesh [] dr) E.cond[c] = 0 := by
    apply Finset.sum_eq_zero
    intro c _
    have := E.row_cond hn ho [] dr c
    rw [r0, add_zero] at this
    rw [this, mul_zero]
  rw [z, add_zero, energy, dotProduct]
  apply Finset.sum_congr rfl
  intro a _
  have := E.row_ret hn [] dr a
  rw [r0, add_zero] at this
  rw [this, E.mesh_ret hn]
  have : E.refOf [] = 0 := by
    simp only [FoundEl.refOf, r0]
    have : (fun _ : Fin E.cond.length => (0 : K)) = 0 := rfl
    rw [this, mulVec_zero, mulVec_zero]
    ext; simp
  rw [this, add_zero]

/-- **C64**, stiffness: the condensed stiffness is symmetric, and for a positive
rigidity and foundation modulus its energy is positive for every displacement of the
ends that is not zero (a beam on a foundation needs no supports). -/
theorem C64_stiffness (F : Found K) (hn : 0 < F.n) (hL : 0 < F.L) (hEI : 0 < F.EI) (hk : 0 < F.kf)
    (inv : Inverter K) (hS : inv.Sound) (E : FoundEl K) (hE : F.build inv = .ok E) :
    E.kᵀ = E.k ∧ (∀ d : Vec4 K, 0 ≤ energy E.k d) ∧ ∀ d : Vec4 K, d ≠ 0 → 0 < energy E.k d := by
  obtain ⟨rfl, ho⟩ := Found.build_ok hS hE
  have hh := (E.h_pos hn hL).ne'
  have hpos := fun d => E.ke_pos hn hL hEI hk d
  have hnn : ∀ d : Vec4 K, 0 ≤ energy E.k d := by
    intro d
    rw [E.energy_eq hn ho]
    exact Finset.sum_nonneg fun e _ => (hpos _).1
  refine ⟨?_, hnn, fun d hd => lt_of_le_of_ne (hnn d) fun h0 => hd ?_⟩
  · have s1 : E.Krrᵀ = E.Krr := by
      ext a b
      exact E.stiff_symm hh _ _
    have s2 : E.Krcᵀ = E.Kcr := by
      ext a b
      exact E.stiff_symm hh _ _
    have s3 : E.Kccᵀ = E.Kcc := by
      ext a b
      exact E.stiff_symm hh _ _
    have s4 : E.invᵀ = E.inv := by
      rw [← Matrix.inv_eq_right_inv ho, transpose_nonsing_inv, s3]
    rw [FoundEl.k, transpose_sub, transpose_mul, transpose_mul, s1, s4, s2, ← s2, transpose_transpose,
      s2, Matrix.mul_assoc]
  · rw [E.energy_eq hn ho] at h0
    have hz := (Finset.sum_eq_zero_iff_of_nonneg fun e _ => (hpos _).1).1 h0.symm
    have he : ∀ e < E.n, elemVec (E.mesh [] d) e = 0 := fun e h =>
      (hpos _).2 (hz e (Finset.mem_range.2 h))
    have hr := fun a => E.mesh_ret hn [] d a
    rw [Found.ret_eq] at hr
    have h1 := he 0 hn
    have h2 := he (E.n - 1) (by omega)
    ext a
    fin_cases a
    · exact (hr 0).symm.trans (congrFun h1 0)
    · exact (hr 1).symm.trans (congrFun h1 1)
    · have := congrFun h2 2
      simp only [elemVec] at this
      refine (hr 2).symm.trans ?_
      rw [← show 2 * (E.n - 1) + ((2 : Fin 4) : ℕ) = 2 * E.n by simp; omega]
      exact this
    · have := congrFun h2 3
      simp only [elemVec] at this
      refine (hr 3).symm.trans ?_
      rw [← show 2 * (E.n - 1) + ((3 : Fin 4) : ℕ) = 2 * E.n + 1 by simp; omega]
      exact this

/-- **C64**, the matrix that is inverted is never singular. -/
theorem C64_internal_nonsingular (F : Found K) (hn : 0 < F.n) (hL : 0 < F.L) (hEI : 0 < F.EI)
    (hk : 0 < F.kf) : IsUnit F.Kcc.det := by
  rw [isUnit_iff_ne_zero]
  intro hdet
  obtain ⟨v, hv, h0⟩ := Matrix.exists_mulVec_eq_zero_iff.2 hdet
  apply hv
  have h1 := spread_dot F.ndof (fun p => ∀ a, p ≠ F.ret a) F.stiff F.cond F.cond_eq v v
  have h2 := (F.sys []).totalEnergy_eq (spread F.cond v)
  rw [Found.sys_N, ← Found.stiff_eq, h1] at h2
  change _ = v ⬝ᵥ (F.Kcc *ᵥ v) at h2
  rw [h0, dotProduct_zero] at h2
  have h3 : (F.sys []).totalEnergy (spread F.cond v) = ∑ e ∈ range F.n,
      energy (kEbeam F.EI F.h + mConsistent F.kf F.h) (elemVec (spread F.cond v) e) := by
    simp [System.totalEnergy, Found.sys, System.spring]
  rw [h3] at h2
  have hpos := fun d => F.ke_pos hn hL hEI hk d
  have hz := (Finset.sum_eq_zero_iff_of_nonneg fun e _ => (hpos _).1).1 h2
  funext c
  have hc : F.cond[c] < F.ndof := ((F.mem_cond _).1 (List.getElem_mem c.isLt)).1
  rw [← spread_mem F.cond_nodup v c]
  simp only [Fin.getElem_fin] at hc ⊢
  generalize F.cond[(c : ℕ)] = p at hc
  rw [Found.ndof] at hc
  obtain ⟨e, he, a, rfl⟩ : ∃ e < F.n, ∃ a : Fin 4, p = 2 * e + a := by
    by_cases h : p / 2 < F.n
    · exact ⟨p / 2, h, ⟨p % 2, by omega⟩, by simp only; omega⟩
    · exact ⟨F.n - 1, by omega, ⟨2 + p % 2, by omega⟩, by simp only; omega⟩
  exact congrFun ((hpos _).2 (hz e (Finset.mem_range.2 he))) a

end PyCBA
