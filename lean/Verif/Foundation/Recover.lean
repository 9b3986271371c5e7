import Verif.Foundation.Balance
import Verif.Modal.Condense
import Verif.Results.Props

/-!
C81: what is reported along a foundation member.
C70: the modal analysis leaves the foundation out.
-/

set_option linter.unusedSectionVars false
set_option linter.unusedSimpArgs false

namespace PyCBA

open Matrix Finset

/-! ### An inverse that exists -/

/-- An `np.linalg.inv` that always answers when there is an inverse. -/
noncomputable def anyInverter {K : Type*} [Field K] : Inverter K := fun _ A =>
  open Classical in
  if IsUnit A.det then .ok A⁻¹ else .error .valueError

theorem anyInverter_sound {K : Type*} [Field K] : (anyInverter (K := K)).Sound := by
  intro m A X h
  unfold anyInverter at h
  split at h
  · rename_i hu
    cases h
    exact Matrix.mul_nonsing_inv A hu
  · cases h

/-- Every foundation member with positive data is accepted, so the theorems about the
element apply to it: `C64_stiffness`, `C64_mesh_equilibrium`, `C64_balance`. -/
theorem Found.build_any {K : Type*} [Field K] [LinearOrder K] [IsStrictOrderedRing K] (F : Found K)
    (hn : 0 < F.n) (hL : 0 < F.L) (hEI : 0 < F.EI) (hk : 0 < F.kf) :
    ∃ E, F.build anyInverter = .ok E := by
  refine ⟨⟨F, F.Kcc⁻¹⟩, ?_⟩
  have h := C64_internal_nonsingular F hn hL hEI hk
  rw [Found.build, anyInverter, if_pos h]

example : ∃ E : FoundEl ℚ, Found.build ⟨10, 1000, 50, 8⟩ anyInverter = .ok E ∧ E.kᵀ = E.k ∧
    ∀ d : Vec4 ℚ, d ≠ 0 → 0 < energy E.k d := by
  obtain ⟨E, hE⟩ := Found.build_any (⟨10, 1000, 50, 8⟩ : Found ℚ) (by simp) (by simp) (by simp)
    (by simp)
  have h := C64_stiffness _ (by simp) (by simp) (by simp) (by simp) _ anyInverter_sound E hE
  exact ⟨E, hE, h.1, h.2.2⟩

/-- `C64_balance` applies to a loaded member. -/
example (dr : Vec4 ℝ) : ∃ (E : FoundEl ℝ) (refs : List (Vec4 ℝ)),
    Found.build ⟨10, 1000, 50, 8⟩ anyInverter = .ok E ∧
    (⟨10, 1000, 50, 8⟩ : Found ℝ).refs [.udl 3] = .ok refs ∧
    (E.k *ᵥ dr + E.refOf refs) 0 + (E.k *ᵥ dr + E.refOf refs) 2
      = 30 + ∑ e ∈ range 8, ∫ x in (0 : ℝ)..10 / 8, 50 * cubic (10 / 8) (elemVec (E.mesh refs dr) e) x := by
  obtain ⟨E, hE⟩ := Found.build_any (⟨10, 1000, 50, 8⟩ : Found ℝ) (by simp) (by simp) (by simp)
    (by simp)
  have hr : ∃ refs, (⟨10, 1000, 50, 8⟩ : Found ℝ).refs [.udl 3] = .ok refs := by
    simp [Found.refs, Found.subLoads, Found.subLoad, List.range_succ, mapE, pieceRef, Load.getRef,
      Load.getCnl]
  obtain ⟨refs, hr⟩ := hr
  have h := (C64_balance _ (by simp) (by simp) _ anyInverter_sound E hE [.udl 3]
    (by simp [Load.OnSpan]) (by simp [Found.Clear]) refs hr dr).2.1
  refine ⟨E, refs, hE, hr, ?_⟩
  rw [h]
  have : ([Load.udl 3].map fun l : Load ℝ => l.total 10).sum = 30 := by
    simp [total_udl (show (0 : ℝ) < 10 by norm_num)]
    norm_num
  simp only at this ⊢
  rw [this]
  simp [Found.h]

/-! ### Modal analysis -/

/-- **C70 fails** on foundations: for every span on a foundation, the static analysis
stores energy when the span translates rigidly, while the stiffness which the modal
analysis assembles for the same span stores none. -/
theorem C70_foundation_violated (inv : Inverter ℝ) (hS : inv.Sound) (m : Member ℝ) (kf e : ℝ)
    (hL : 0 < m.L) (he : 0 < e) (hkf : 0 < kf) (hm : modalEI m = .ok e) (k : Mat4 ℝ)
    (hk : spanKf inv m (some kf) = .ok k) (n : ℕ) :
    0 < energy k ![1, 0, 1, 0] ∧ energy (kEbeam e (m.L / n)) ![1, 0, 1, 0] = 0 := by
  constructor
  · obtain ⟨EI, L, et, GAv⟩ := m
    simp only at hL
    unfold modalEI at hm
    split at hm
    · cases hm
    · cases hm
    · rename_i e' he1 he2 he3
      cases hm
      simp only at he1 he2 he3
      subst he1 he2 he3
      simp only [spanKf, spanFoundation] at hk
      cases ha : autoSubdivisions L e kf with
      | error x => rw [ha] at hk; cases hk
      | ok N =>
        rw [ha] at hk
        simp only at hk
        have hN : 0 < N := by
          unfold autoSubdivisions at ha
          have : 0 < 4 * e / kf := by positivity
          rw [if_neg hkf.ne', if_neg (not_lt.2 this.le), if_neg this.ne'] at ha
          cases ha
          omega
        split at hk
        · cases hk
        · rename_i E hE
          cases hk
          refine (C64_stiffness _ hN hL he hkf inv hS E hE).2.2 _ ?_
          intro h
          have := congrFun h 0
          simp at this
    · cases hm
  · simp only [energy, dotProduct, mulVec, Fin.sum_univ_four, kEbeam, Matrix.smul_apply,
      Matrix.of_apply, Matrix.cons_val, Matrix.cons_val_zero, Matrix.cons_val_one, smul_eq_mul]
    ring

/-- `C70_foundation_violated` concerns members that both analyses accept. -/
example : ∃ k, modalEI (prism 1 1 : Member ℝ) = .ok 1 ∧
    spanKf anyInverter (prism 1 1) (some 5) = .ok k ∧ 0 < energy k ![1, 0, 1, 0] := by
  have h1 : modalEI (prism 1 1 : Member ℝ) = .ok 1 := rfl
  have h2 : ∃ k, spanKf anyInverter (prism 1 1 : Member ℝ) (some 5) = .ok k := by
    have ha : ∃ N, autoSubdivisions 1 1 5 = .ok N ∧ 0 < N := by
      unfold autoSubdivisions
      rw [if_neg (by norm_num), if_neg (by norm_num), if_neg (by norm_num)]
      exact ⟨_, rfl, by omega⟩
    obtain ⟨N, ha, hN⟩ := ha
    obtain ⟨E, hE⟩ := Found.build_any (⟨1, 1, 5, N⟩ : Found ℝ) hN (by simp) (by simp) (by simp)
    refine ⟨E.k, ?_⟩
    simp only [spanKf, spanFoundation, prism, ha, hE]
  obtain ⟨k, hk⟩ := h2
  exact ⟨k, h1, hk, (C70_foundation_violated _ anyInverter_sound _ 5 1 (by simp [prism]) (by simp)
    (by simp) h1 k hk 1).1⟩

/-! ### Reported values -/

/-- The kinds of loads that can appear on a piece. -/
def Load.Simple {K : Type*} : Load K → Prop
  | .udl _ => True
  | .pl _ _ => True
  | .pudl _ _ _ => True
  | _ => False

theorem Found.subLoad_simple {F : Found ℝ} {l : Load ℝ} {p : ℕ → List (Load ℝ)}
    (h : F.subLoad l = .ok p) (e : ℕ) : ∀ k ∈ p e, k.Simple := by
  intro k hk
  unfold Found.subLoad at h
  split at h
  · cases h
    simp only [List.mem_singleton] at hk
    subst hk
    trivial
  · dsimp only at h
    rename_i P a
    generalize hi : (if min (truncInt (a / F.h)) ((F.n : ℤ) - 1) < (0 : ℤ) then
      min (truncInt (a / F.h)) ((F.n : ℤ) - 1) + F.n else min (truncInt (a / F.h)) ((F.n : ℤ) - 1))
      = i at h
    split at h
    · cases h
    · cases h
      simp only at hk
      split at hk
      · simp only [List.mem_singleton] at hk
        subst hk
        trivial
      · cases hk
  · cases h
    simp only at hk
    split at hk
    · split at hk <;>
      · simp only [List.mem_singleton] at hk
        subst hk
        trivial
    · cases hk
  · cases h

theorem Found.subLoads_simple {F : Found ℝ} {ls : List (Load ℝ)} {p : ℕ → List (Load ℝ)}
    (h : F.subLoads ls = .ok p) (e : ℕ) : ∀ k ∈ p e, k.Simple := by
  induction ls generalizing p with
  | nil => cases h; simp
  | cons l ls ih =>
    simp only [Found.subLoads] at h
    split at h
    · cases h
    · rename_i p1 hp1
      split at h
      · cases h
      · rename_i p2 hp2
        cases h
        intro k hk
        rcases List.mem_append.1 hk with hk | hk
        · exact Found.subLoad_simple hp1 e k hk
        · exact ih hp2 k hk

theorem simple_ends {h : ℝ} (hh : 0 < h) (EI : ℝ) {l : Load ℝ} (hs : l.Simple) (ho : l.OnSpan h) :
    l.ssM h 0 = 0 ∧ l.ssM h h = 0 := by
  cases l with
  | udl w =>
    have := Load.ends ⟨.const EI, h, .FF, none⟩ hh (.udl w) ho (by simp) _ rfl
    simpa [Load.startCouple, Load.endCouple] using this.2.2
  | pl P a =>
    have := Load.ends ⟨.const EI, h, .FF, none⟩ hh (.pl P a) ho (by simp) _ rfl
    simpa [Load.startCouple, Load.endCouple] using this.2.2
  | pudl w a c =>
    have hc : ∃ cc, Member.cnl ⟨.const EI, h, .FF, none⟩ (.pudl w a c) = .ok cc := by
      obtain ⟨h0, h1, h2⟩ : 0 ≤ a ∧ 0 ≤ c ∧ a + c ≤ h := ho
      simp only [Member.cnl, Load.getCnl]
      rw [if_neg (not_lt.2 (by linarith))]
      split <;> simp_all
    obtain ⟨cc, hc⟩ := hc
    have := Load.ends ⟨.const EI, h, .FF, none⟩ hh (.pudl w a c) ho (by simp) _ hc
    simpa [Load.startCouple, Load.endCouple] using this.2.2
  | _ => exact hs.elim

/-- **C81**, what is reported: for any loads on the member, clear of the tolerances, any
end displacements and any resolution, the first and the last station inside piece `e`
are at its ends, the deflection and rotation reported at the first are those of the
mesh, and the moments reported at the two are the moments acting there (those of
`C64_mesh_equilibrium`, which are the end moments of the member at its ends and balance
between the pieces) changed by the consistent nodal moments of the foundation on the
piece.  Missing: equality with the moments acting there, which fails
(`C81_floating_violation`). -/
theorem C81_end_moments_partial (F : Found ℝ) (hn : 0 < F.n) (hL : 0 < F.L) (inv : Inverter ℝ)
    (hS : inv.Sound) (E : FoundEl ℝ) (hE : F.build inv = .ok E) (loads : List (Load ℝ))
    (hon : ∀ l ∈ loads, l.OnSpan F.L) (hcl : ∀ l ∈ loads, F.Clear l) (dr : Vec4 ℝ) (npts : ℕ)
    (out : List (FStn ℝ)) (ho : E.recover dr loads npts = .ok out) :
    ∃ (refs : List (Vec4 ℝ)) (pieces : ℕ → List (FStn ℝ)) (q : ℕ), F.refs loads = .ok refs ∧
      out = (List.range F.n).flatMap pieces ∧ 2 ≤ q ∧ ∀ e < F.n, (pieces e).length = q + 3 ∧
      ∃ s t, (pieces e)[1]? = some s ∧ (pieces e)[q + 1]? = some t ∧
        s.x = e * F.h ∧ t.x = (e + 1) * F.h ∧
        s.D = E.mesh refs dr (2 * e) ∧ s.R = E.mesh refs dr (2 * e + 1) ∧
        s.M = -((F.sys refs).endForces (E.mesh refs dr) e 1
          - (mConsistent F.kf F.h *ᵥ elemVec (E.mesh refs dr) e) 1) ∧
        t.M = (F.sys refs).endForces (E.mesh refs dr) e 3
          - (mConsistent F.kf F.h *ᵥ elemVec (E.mesh refs dr) e) 3 := by
  obtain ⟨rfl, -⟩ := Found.build_ok hS hE
  have hh := E.h_pos hn hL
  unfold FoundEl.recover at ho
  split at ho
  · cases ho
  rename_i per hper
  split at ho
  · cases ho
  rename_i refs hrefs
  cases ho
  refine ⟨refs, _, E.nptsSub npts, hrefs, rfl, le_max_left _ _, ?_⟩
  intro e he
  have hq : 2 ≤ E.nptsSub npts := le_max_left _ _
  generalize E.nptsSub npts = q at hq ⊢
  obtain ⟨p1, -, -⟩ := C64_loads_partial E.toFound hn hL loads hon hcl per hper
  have hs := Found.subLoads_simple hper e
  simp only [FoundEl.pieceValues]
  set c := pieceCtx E.EI E.h (E.pieceForces refs dr e) (elemVec (E.mesh refs dr) e) (per e) q with hc
  obtain ⟨x1, x2, x3, x4, x5, -⟩ := c.x_spec hh (by show 0 < q; omega)
  have hins : insidePoints c.m.L c.sp = [] := rfl
  have hcn : c.npts = q := rfl
  rw [hins, hcn] at x1
  simp only [List.length_nil, mul_zero, add_zero] at x1
  have hcL : c.m.L = E.h := rfl
  have h1 : ¬ c.IsEnd 1 := by simp only [MCtx.IsEnd]; omega
  have h2 : ¬ c.IsEnd (q + 1) := by simp only [MCtx.IsEnd]; omega
  rw [show c.n - 2 = q + 1 by omega, hcL] at x4
  have s0 : (c.own.map fun l => l.ssM c.m.L 0).sum = 0 := by
    apply List.sum_eq_zero
    intro v hv
    obtain ⟨l, hl, rfl⟩ := List.mem_map.1 hv
    exact (simple_ends hh E.EI (hs l hl) (p1 e he l hl)).1
  have s1 : (c.own.map fun l => l.ssM c.m.L E.h).sum = 0 := by
    apply List.sum_eq_zero
    intro v hv
    obtain ⟨l, hl, rfl⟩ := List.mem_map.1 hv
    exact (simple_ends hh E.EI (hs l hl) (p1 e he l hl)).2
  have hpf : ∀ j, c.f j = (E.sys refs).endForces (E.mesh refs dr) e j
      - (mConsistent E.kf E.h *ᵥ elemVec (E.mesh refs dr) e) j := by
    intro j
    show E.pieceForces refs dr e j = _
    simp only [FoundEl.pieceForces, System.endForces, Found.sys, add_mulVec, Pi.add_apply]
    ring
  refine ⟨by simp [x1], ⟨c.x 1 + e * E.h, c.M 1, c.V 1, c.R 1, c.D 1⟩,
    ⟨c.x (q + 1) + e * E.h, c.M (q + 1), c.V (q + 1), c.R (q + 1), c.D (q + 1)⟩, ?_, ?_, ?_, ?_, ?_,
    ?_, ?_, ?_⟩
  · rw [List.getElem?_map, List.getElem?_range (by omega)]
    rfl
  · rw [List.getElem?_map, List.getElem?_range (by omega)]
    rfl
  · simp only [x3, zero_add]
  · simp only [x4]
    ring
  · simp only [MCtx.D, if_neg h1, MCtx.defl, Nat.sub_self, cumTrap, zero_add]
    simp [hc, pieceCtx, elemVec]
  · simp only [MCtx.R, if_neg h1, MCtx.psi, MCtx.psiProv, Nat.sub_self, cumTrap, zero_add]
    simp [hc, pieceCtx, elemVec, MCtx.psi0]
  · simp only [MCtx.M, if_neg h1, x3, s0, mambStn, ← hpf]
    ring
  · rw [hcL] at s1
    simp only [MCtx.M, if_neg h2, x4, mambStn, ← hpf, hcL, s1]
    field_simp
    ring

/-- The recovered mesh displacements are the only ones in equilibrium inside the member
with the given ends. -/
theorem FoundEl.mesh_unique {K : Type*} [Field K] [LinearOrder K] [IsStrictOrderedRing K]
    (E : FoundEl K) (hn : 0 < E.n) (ho : E.Ok) (refs : List (Vec4 K)) (hl : refs.length = E.n)
    (d : ℕ → K) (hd : ∀ p < E.ndof, (∀ a, p ≠ E.ret a) → (E.sys refs).residual d p = 0) :
    ∀ p < E.ndof, E.mesh refs (fun a => d (E.ret a)) p = d p := by
  have hinv : E.inv * E.Kcc = 1 := mul_eq_one_comm.1 ho
  have key : E.dc refs (fun a => d (E.ret a)) = fun c => d E.cond[c] := by
    have : (fun c : Fin E.cond.length => -rfull refs E.cond[c]) - E.Kcr *ᵥ (fun a => d (E.ret a))
        = E.Kcc *ᵥ fun c => d E.cond[c] := by
      funext c
      have hm := (E.mem_cond _).1 (List.getElem_mem c.isLt)
      have h := hd _ hm.1 hm.2
      rw [E.residual_eq refs hl, mulN, E.sum_split hn] at h
      have h1 : ∑ a, E.stiff E.cond[c] (E.ret a) * d (E.ret a)
        = (E.Kcr *ᵥ fun a => d (E.ret a)) c := rfl
      have h2 : ∑ c' : Fin E.cond.length, E.stiff E.cond[c] E.cond[c'] * d E.cond[c']
        = (E.Kcc *ᵥ fun c => d E.cond[c]) c := rfl
      simp only [Fin.getElem_fin] at h h1 h2
      rw [h1, h2] at h
      simp only [Pi.sub_apply, Fin.getElem_fin]
      linear_combination -h
    rw [FoundEl.dc, this, mulVec_mulVec, hinv, one_mulVec]
  intro p hp
  by_cases hr : ∃ a, p = E.ret a
  · obtain ⟨a, rfl⟩ := hr
    exact E.mesh_ret hn refs _ a
  · push Not at hr
    obtain ⟨k, hk, he⟩ := List.mem_iff_getElem.1 ((E.mem_cond p).2 ⟨hp, hr⟩)
    have := E.mesh_cond refs (fun a => d (E.ret a)) ⟨k, hk⟩
    simp only [Fin.getElem_fin] at this
    rw [he, key] at this
    simpa [he] using this

theorem mapE_const {α β : Type*} (f : α → Except PyErr β) (b : β) (l : List α)
    (h : ∀ a ∈ l, f a = .ok b) : mapE f l = .ok (List.replicate l.length b) := by
  induction l with
  | nil => rfl
  | cons a l ih =>
    simp only [mapE]
    rw [h a (by simp), ih fun x hx => h x (by simp [hx])]
    rfl

/-- **C64** at a case known in closed form, for every foundation member: floating with
displacement `v` under the uniform load `-kf v`, the condensed member needs no end
forces and every node of the mesh is displaced by `v` without rotation. -/
theorem C64_floating (F : Found ℝ) (hn : 0 < F.n) (hL : 0 < F.L) (inv : Inverter ℝ)
    (hS : inv.Sound) (E : FoundEl ℝ) (hE : F.build inv = .ok E) (v : ℝ) :
    ∃ refs, F.refs [.udl (-(F.kf * v))] = .ok refs ∧
      E.k *ᵥ ![v, 0, v, 0] + E.refOf refs = 0 ∧
      ∀ e ≤ F.n, E.mesh refs ![v, 0, v, 0] (2 * e) = v ∧ E.mesh refs ![v, 0, v, 0] (2 * e + 1) = 0 := by
  obtain ⟨rfl, ho⟩ := Found.build_ok hS hE
  have hh := (E.h_pos hn hL).ne'
  have hr : E.refs [.udl (-(E.kf * v))] = .ok (List.replicate E.n (udlCnl (-(E.kf * v)) E.h).vec) := by
    simp only [Found.refs, Found.subLoads, Found.subLoad]
    rw [mapE_const _ (udlCnl (-(E.kf * v)) E.h).vec, List.length_range]
    intro a _
    simp [pieceRef, Load.getRef, Load.getCnl, releaseCnl]
  set refs := List.replicate E.n (udlCnl (-(E.kf * v)) E.h).vec with hrefs
  have hl : refs.length = E.n := by simp [hrefs]
  set d : ℕ → ℝ := fun p => if p % 2 = 0 then v else 0 with hd
  have hend : ∀ e < E.n, (E.sys refs).endForces d e = 0 := by
    intro e he
    have h1 : elemVec d e = ![v, 0, v, 0] := by
      funext j
      fin_cases j <;> simp [elemVec, hd]
    have h2 : refs.getD e 0 = (udlCnl (-(E.kf * v)) E.h).vec := by
      rw [hrefs, List.getD_eq_getElem?_getD, List.getElem?_replicate_of_lt he]
      rfl
    simp only [System.endForces, Found.sys, h1, h2]
    funext j
    fin_cases j <;>
      simp [add_mulVec, mulVec, dotProduct, Fin.sum_univ_four, kEbeam, mConsistent, udlCnl, CNL.vec] <;>
      field_simp <;> ring
  have hres : ∀ j ≤ E.n, ∀ c : Fin 2, (E.sys refs).residual d (2 * j + c) = 0 := by
    intro j hj c
    rw [(E.sys refs).residual_node d j hj c]
    have hs : (E.sys refs).spring (2 * j + c) = 0 := by simp [System.spring, Found.sys]
    have hsn : (E.sys refs).n = E.n := rfl
    rw [hs, hsn]
    by_cases h1 : 0 < j <;> by_cases h2 : j < E.n <;>
      simp only [h1, h2, if_true, if_false, zero_mul, add_zero, zero_add]
    · rw [hend _ (by omega), hend _ h2]; simp
    · rw [hend _ (by omega)]; simp
    · rw [hend _ h2]; simp
  have hdr : (fun a => d (E.ret a)) = ![v, 0, v, 0] := by
    funext a
    rw [Found.ret_eq]
    fin_cases a <;> simp [hd]
  have hall : ∀ p < E.ndof, (E.sys refs).residual d p = 0 := by
    intro p hp
    have := hres (p / 2) (by simp only [Found.ndof] at hp; omega) ⟨p % 2, by omega⟩
    simp only [Nat.div_add_mod] at this
    exact this
  have hmesh := E.mesh_unique hn ho refs hl d fun p hp _ => hall p hp
  rw [hdr] at hmesh
  refine ⟨refs, hr, ?_, ?_⟩
  · funext a
    rw [← E.row_ret hn refs]
    have : mulN E.ndof E.stiff (E.mesh refs ![v, 0, v, 0]) (E.ret a)
        = mulN E.ndof E.stiff d (E.ret a) := by
      unfold mulN
      exact Finset.sum_congr rfl fun p hp => by rw [hmesh p (Finset.mem_range.1 hp)]
    rw [this, ← E.residual_eq refs hl]
    exact hall _ (E.ret_lt hn a)
  · intro e he
    constructor
    · rw [hmesh _ (by simp only [Found.ndof]; omega)]
      simp [hd]
    · rw [hmesh _ (by simp only [Found.ndof]; omega)]
      simp [hd]

/-- **C81 fails** on every foundation member: floating with displacement `v` under the
uniform load `-kf v`, nothing acts on its ends and it does not bend, yet the moment
reported at its left end is `kf v h² / 12`, `h` being the length of the pieces. -/
theorem C81_floating_violation (F : Found ℝ) (hn : 0 < F.n) (hL : 0 < F.L) (inv : Inverter ℝ)
    (hS : inv.Sound) (E : FoundEl ℝ) (hE : F.build inv = .ok E) (v : ℝ) (npts : ℕ)
    (out : List (FStn ℝ)) (ho : E.recover ![v, 0, v, 0] [.udl (-(F.kf * v))] npts = .ok out) :
    (∃ r, E.ref [.udl (-(F.kf * v))] = .ok r ∧ E.k *ᵥ ![v, 0, v, 0] + r = 0) ∧
    ∃ s, out[1]? = some s ∧ s.x = 0 ∧ s.D = v ∧ s.R = 0 ∧ s.M = F.kf * v * F.h ^ 2 / 12 := by
  have hh := (F.h_pos hn hL).ne'
  obtain ⟨refs, pieces, q, h1, h2, h3, h4⟩ := C81_end_moments_partial F hn hL inv hS E hE
    [.udl (-(F.kf * v))] (by simp [Load.OnSpan]) (by simp [Found.Clear]) _ npts out ho
  obtain ⟨refs', g1, g2, g3⟩ := C64_floating F hn hL inv hS E hE v
  rw [h1] at g1
  cases g1
  have hEF := (Found.build_ok hS hE).1
  refine ⟨⟨E.refOf refs, by rw [FoundEl.ref, hEF, h1], g2⟩, ?_⟩
  obtain ⟨l0, s, t, hs, -, s1, -, s2, s3, s4, -⟩ := h4 0 hn
  refine ⟨s, ?_, by simpa using s1, ?_, ?_, ?_⟩
  · rw [h2]
    obtain ⟨m, hm⟩ : ∃ m, F.n = m + 1 := ⟨F.n - 1, by omega⟩
    rw [hm, List.range_succ_eq_map, List.flatMap_cons, List.getElem?_append_left (by omega), hs]
  · rw [s2]
    exact (g3 0 (Nat.zero_le _)).1
  · rw [s3]
    exact (g3 0 (Nat.zero_le _)).2
  · have he : (F.sys refs).endForces (E.mesh refs ![v, 0, v, 0]) 0 1 = 0 := by
      have hl : refs.length = F.n := by
        unfold Found.refs at h1
        split at h1
        · cases h1
        · rw [(mapE_ok h1).1, List.length_range]
      have := (C64_mesh_equilibrium F hn inv hS E hE refs hl ![v, 0, v, 0]).2.2.1 1
      rw [g2] at this
      exact this
    have hv : elemVec (E.mesh refs ![v, 0, v, 0]) 0 = ![v, 0, v, 0] := by
      have a0 := g3 0 (Nat.zero_le _)
      have a1 := g3 1 hn
      funext j
      fin_cases j
      · exact a0.1
      · exact a0.2
      · exact a1.1
      · exact a1.2
    rw [s4, he, hv]
    simp [mulVec, dotProduct, Fin.sum_univ_four, mConsistent]
    ring

/-- The violation on a member of length 8 in 8 pieces, floating at 6 under the load 300. -/
example : ∃ (E : FoundEl ℝ) (out : List (FStn ℝ)),
    Found.build ⟨8, 1000, 50, 8⟩ anyInverter = .ok E ∧
    E.recover ![6, 0, 6, 0] [.udl (-(50 * 6))] 100 = .ok out ∧
    ∃ s, out[1]? = some s ∧ s.x = 0 ∧ s.M = 25 := by
  obtain ⟨E, hE⟩ := Found.build_any (⟨8, 1000, 50, 8⟩ : Found ℝ) (by simp) (by simp) (by simp)
    (by simp)
  have hEF := (Found.build_ok anyInverter_sound hE).1
  obtain ⟨refs, g1, -⟩ := C64_floating _ (by simp) (by simp) _ anyInverter_sound E hE 6
  have : ∃ out, E.recover ![6, 0, 6, 0] [.udl (-(50 * 6))] 100 = .ok out := by
    unfold FoundEl.recover
    rw [hEF, g1]
    exact ⟨_, rfl⟩
  obtain ⟨out, ho⟩ := this
  obtain ⟨-, s, h1, h2, -, -, h3⟩ := C81_floating_violation _ (by simp) (by simp) _ anyInverter_sound
    E hE 6 100 out ho
  refine ⟨E, out, hE, ho, s, h1, h2, ?_⟩
  rw [h3]
  norm_num [Found.h]

/-- **C64**: a member is only given a foundation element when it is prismatic, slender and
clamped at both ends; the element is then that of its own length, rigidity and foundation
modulus.  Anything else is refused. -/
theorem C64_scope (inv : Inverter ℝ) (m : Member ℝ) (kf : ℝ) (E : FoundEl ℝ)
    (h : spanFoundation inv m kf = .ok E) :
    m.et = .FF ∧ m.GAv = none ∧ m.EI = .const E.EI ∧ E.L = m.L ∧ E.kf = kf ∧
      autoSubdivisions m.L E.EI kf = .ok E.n := by
  unfold spanFoundation at h
  split at h
  · cases h
  · cases h
  · rename_i e h1 h2 h3
    split at h
    · cases h
    · rename_i n hn
      unfold Found.build at h
      split at h
      · cases h
      · cases h
        exact ⟨h3, h2, h1, rfl, rfl, hn⟩
  · cases h

/-- A member with an end release is refused. -/
example (inv : Inverter ℝ) (e L kf : ℝ) (E : FoundEl ℝ) :
    spanFoundation inv ⟨.const e, L, .FP, none⟩ kf ≠ .ok E := fun h =>
  absurd (C64_scope inv _ kf E h).1 (by simp)

/-- **C64**, the mesh: the number of pieces is between 8 and 400, and unless the upper bound stops it
no piece is longer than an eighth of the characteristic length `λ` (`λ⁴ = 4 EI / kf`). -/
theorem C64_mesh (L EI kf : ℝ) (n : ℕ) (h : autoSubdivisions L EI kf = .ok n) :
    8 ≤ n ∧ n ≤ 400 ∧ ∀ lam : ℝ, 0 < lam → lam ^ 4 = 4 * EI / kf → L ≤ n * (lam / 8) ∨ n = 400 := by
  unfold autoSubdivisions at h
  split_ifs at h with h1 h2 h3
  cases h
  refine ⟨by omega, by omega, fun lam hl he => ?_⟩
  have hr : (4 * EI / kf) ^ (1 / 4 : ℝ) = lam := by
    rw [← he, ← Real.rpow_natCast, ← Real.rpow_mul hl.le]
    norm_num
  rw [hr]
  have hc := Int.le_ceil (8 * L / lam)
  by_cases hbig : ⌈8 * L / lam⌉ ≤ 400
  · left
    have e : ((min (max ⌈8 * L / lam⌉ 8) 400).toNat : ℝ) = ((max ⌈8 * L / lam⌉ 8 : ℤ) : ℝ) := by
      have : ((min (max ⌈8 * L / lam⌉ 8) 400).toNat : ℤ) = max ⌈8 * L / lam⌉ 8 := by omega
      exact_mod_cast this
    rw [e]
    have h5 : (⌈8 * L / lam⌉ : ℝ) ≤ ((max ⌈8 * L / lam⌉ 8 : ℤ) : ℝ) := by exact_mod_cast le_max_left _ _
    have h6 : 8 * L ≤ ((max ⌈8 * L / lam⌉ 8 : ℤ) : ℝ) * lam := (div_le_iff₀ hl).1 (hc.trans h5)
    linarith
  · right
    omega

/-- C64 at a span of 1 with `λ = 1`: eight pieces. -/
example : autoSubdivisions 1 (1 / 4) 1 = .ok 8 := by
  unfold autoSubdivisions
  rw [if_neg (by norm_num), if_neg (by norm_num), if_neg (by norm_num)]
  norm_num
  rfl

end PyCBA
