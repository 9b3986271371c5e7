import Verif.Similar.Units
import Verif.Analysis.Stability

/-!
C104: the results along the members do not depend on the units, except at the padding
stations; the stability check does.
-/

set_option linter.unusedSectionVars false
set_option linter.unusedSimpArgs false

namespace PyCBA

open Matrix Finset

variable {K : Type*} [Field K] [LinearOrder K] [IsStrictOrderedRing K]

/-- Results along a member in other units: rotations keep their values. -/
structure MRes.InUnits (l f : K) (r r' : MRes K) : Prop where
  n : r'.n = r.n
  x : ∀ k, r'.x k = l * r.x k
  M : ∀ k, r'.M k = f * l * r.M k
  V : ∀ k, r'.V k = f * r.V k
  /-- Not at the two padding stations. -/
  R : ∀ k, 0 < k → k < r.n - 1 → r'.R k = r.R k
  D : ∀ k, 0 < k → k < r.n - 1 → r'.D k = l * r.D k

theorem cumTrap_scale {h h' y y' : ℕ → K} (a c : K) (hh : ∀ k, h' k = a * h k)
    (hy : ∀ k, y' k = c * y k) (k : ℕ) : cumTrap h' y' k = a * c * cumTrap h y k := by
  induction k with
  | zero => simp [cumTrap]
  | succ k ih =>
    simp only [cumTrap, ih, hh, hy]
    ring

/-- The context of a member in other units. -/
def MCtx.units (l f : K) (c : MCtx K) : MCtx K :=
  ⟨c.m.units l f, c.own.map (Load.units l f), vecUnits l f c.f, dispVecUnits l c.d, c.npts,
    c.sp.map (l * ·), f * l * c.Ma, f * l * c.Mb⟩

theorem forall2_mapE {α β γ : Type*} {F : α → Except PyErr β} {F' : α → Except PyErr γ}
    {Q : β → γ → Prop} (zs : List α) (rs : List β) (hr : mapE F zs = .ok rs)
    (hall : ∀ a ∈ zs, ∀ r, F a = .ok r → ∃ r', F' a = .ok r' ∧ Q r r') :
    ∃ rs', mapE F' zs = .ok rs' ∧ List.Forall₂ Q rs rs' := by
  induction zs generalizing rs with
  | nil =>
    cases hr
    exact ⟨[], rfl, .nil⟩
  | cons z zs ih =>
    simp only [mapE] at hr ⊢
    cases h1 : F z with
    | error e => simp [h1] at hr
    | ok r =>
      cases h2 : mapE F zs with
      | error e => simp [h1, h2] at hr
      | ok rs1 =>
        simp only [h1, h2, Except.ok.injEq] at hr
        subst hr
        obtain ⟨rs2, h3, h4⟩ := ih rs1 h2 fun mi hmi => hall mi (List.mem_cons_of_mem _ hmi)
        obtain ⟨r', h5, h6⟩ := hall z List.mem_cons_self r h1
        exact ⟨r' :: rs2, by rw [h5, h3], .cons h6 h4⟩

section

variable {l f : K} (hl : 0 < l) (hf : 0 < f)

include hl hf

theorem uniformGrid_units (L : K) (npts : ℕ) :
    uniformGrid (l * L) npts = (uniformGrid L npts).map (l * ·) := by
  unfold uniformGrid
  rw [List.map_map]
  apply List.map_congr_left
  intro k _
  simp only [Function.comp]
  ring

theorem shearPairs_units (L : K) (sp : List K) :
    shearPairs (l * L) (sp.map (l * ·)) = (shearPairs L sp).map (l * ·) := by
  have ho : shearOffset (l * L) = l * shearOffset L := by unfold shearOffset; ring
  unfold shearPairs
  rw [List.filter_map, List.flatMap_map, List.map_flatMap]
  have : (fun xs : K => decide (shearOffset (l * L) < xs ∧ xs < l * L - shearOffset (l * L))) ∘
      (fun x => l * x) = fun xs : K => decide (shearOffset L < xs ∧ xs < L - shearOffset L) := by
    funext x
    simp only [Function.comp, ho, ← mul_sub, mul_lt_mul_iff_right₀ hl]
  rw [this]
  apply List.flatMap_congr
  intro x _
  simp only [ho, List.map_cons, List.map_nil, mul_sub, mul_add]

theorem memberGrid_units (L : K) (npts : ℕ) (sp : List K) :
    memberGrid (l * L) npts (sp.map (l * ·))
      = ((memberGrid L npts sp).1.map (l * ·), (memberGrid L npts sp).2) := by
  unfold memberGrid
  rw [shearPairs_units hl hf, uniformGrid_units hl hf]
  cases shearPairs L sp with
  | nil => rfl
  | cons p ps =>
    simp only [List.map_cons]
    congr 1
    rw [List.map_mergeSort (s := fun a b => decide (a ≤ b))]
    · simp
    · intro a _ b _
      simp only [mul_le_mul_iff_right₀ hl]

theorem padded_units (g : List K) (k : ℕ) : padded (g.map (l * ·)) k = l * padded g k := by
  have e : ∀ j, (g.map (l * ·)).getD j 0 = l * g.getD j 0 := by
    intro j
    simp only [List.getD_eq_getElem?_getD, List.getElem?_map]
    cases g[j]? <;> simp
  unfold padded
  simp only [e, List.length_map]
  split_ifs <;> rfl

theorem MCtx.grid_units (c : MCtx K) : (c.units l f).grid = c.grid.map (l * ·) := by
  simp only [MCtx.grid, MCtx.units, Member.units, memberGrid_units hl hf]

theorem MCtx.n_units (c : MCtx K) : (c.units l f).n = c.n := by
  simp [MCtx.n, MCtx.grid_units hl hf]

theorem MCtx.x_units (c : MCtx K) (k : ℕ) : (c.units l f).x k = l * c.x k := by
  simp only [MCtx.x, MCtx.grid_units hl hf, padded_units hl hf]

theorem MCtx.h_units (c : MCtx K) (k : ℕ) : (c.units l f).h k = l * c.h k := by
  have e : (memberGrid (c.units l f).m.L (c.units l f).npts (c.units l f).sp).2
      = (memberGrid c.m.L c.npts c.sp).2 := by
    simp only [MCtx.units, Member.units, memberGrid_units hl hf]
  simp only [MCtx.h, e, MCtx.x_units hl hf]
  split_ifs
  · ring
  · simp only [MCtx.units, Member.units]; ring

theorem MCtx.isEnd_units (c : MCtx K) (k : ℕ) : (c.units l f).IsEnd k ↔ c.IsEnd k := by
  simp only [MCtx.IsEnd, MCtx.n_units hl hf]

theorem sum_map_units {α : Type*} (ls : List α) (F G : α → K) (u : K) (h : ∀ a, F a = u * G a) :
    (ls.map F).sum = u * (ls.map G).sum := by
  induction ls with
  | nil => simp
  | cons a ls ih => simp only [List.map_cons, List.sum_cons, ih, h]; ring

theorem MCtx.M_units (c : MCtx K) (hL : c.m.L ≠ 0) (k : ℕ) :
    (c.units l f).M k = f * l * c.M k := by
  unfold MCtx.M
  simp only [MCtx.isEnd_units hl hf, MCtx.x_units hl hf]
  split_ifs
  · simp
  · simp only [MCtx.units, Member.units, List.map_map, Function.comp_def, Load.ssM_units hl hf _ _ _ hL]
    rw [sum_map_units hl hf c.own _ (fun a => a.ssM c.m.L (c.x k)) (f * l) fun _ => rfl]
    have h1 := hl.ne'
    simp [mambStn, vecUnits, forceUnit]
    field_simp

theorem MCtx.V_units (c : MCtx K) (hL : c.m.L ≠ 0) (k : ℕ) :
    (c.units l f).V k = f * c.V k := by
  unfold MCtx.V
  simp only [MCtx.isEnd_units hl hf, MCtx.x_units hl hf]
  split_ifs
  · simp
  · simp only [MCtx.units, Member.units, List.map_map, Function.comp_def, Load.ssV_units hl hf _ _ _ hL]
    rw [sum_map_units hl hf c.own _ (fun a => a.ssV c.m.L (c.x k)) f fun _ => rfl]
    have h1 := hl.ne'
    simp [mambStn, vecUnits, forceUnit]
    field_simp

theorem MCtx.kappa_units (c : MCtx K) (k : ℕ) : (c.units l f).kappa k = 1 / l * c.kappa k := by
  unfold MCtx.kappa
  simp only [MCtx.x_units hl hf]
  simp only [MCtx.units, List.map_map, Function.comp_def, Load.kappaImp_units hl hf]
  rw [sum_map_units hl hf c.own _ (fun a => a.kappaImp (c.x k)) (1 / l) fun _ => rfl]

theorem MCtx.curv_units (c : MCtx K) (hL : c.m.L ≠ 0) (k : ℕ) :
    (c.units l f).curv k = 1 / l * c.curv k := by
  have h1 := hl.ne'
  have h2 := hf.ne'
  unfold MCtx.curv
  rw [MCtx.M_units hl hf c hL, MCtx.kappa_units hl hf, MCtx.x_units hl hf]
  have : (c.units l f).m.EI.eval (l * c.x k) = f * l ^ 2 * c.m.EI.eval (c.x k) := by
    simp only [MCtx.units, Member.units, Rigidity.eval_units hl hf]
  rw [this]
  field_simp

theorem MCtx.gamma_units (c : MCtx K) (hL : c.m.L ≠ 0) (k : ℕ) :
    (c.units l f).gamma k = c.gamma k := by
  have h2 := hf.ne'
  have e : (c.units l f).m.GAv = c.m.GAv.map (Rigidity.units l f) := rfl
  unfold MCtx.gamma
  rw [e]
  cases c.m.GAv with
  | none => rfl
  | some g =>
    simp only [Option.map_some, MCtx.V_units hl hf c hL, MCtx.x_units hl hf,
      Rigidity.eval_units hl hf]
    field_simp

theorem MCtx.useBc_units (c : MCtx K) : (c.units l f).useBc = c.useBc := by
  have h1 := hl.ne'
  unfold MCtx.useBc
  simp only [MCtx.n_units hl hf, MCtx.kappa_units hl hf]
  have e1 : (c.units l f).m.EI = c.m.EI.units l (f * l ^ 2) := rfl
  have e2 : (c.units l f).m.GAv.isSome = c.m.GAv.isSome := by simp [MCtx.units, Member.units]
  have e3 : ∀ k, (1 / l * c.kappa k ≠ 0) ↔ c.kappa k ≠ 0 := by
    intro k; simp [h1]
  rw [e2, e1]
  simp only [e3]
  cases c.m.EI <;> rfl

theorem MCtx.psiProv_units (c : MCtx K) (hL : c.m.L ≠ 0) (k : ℕ) :
    (c.units l f).psiProv k = c.psiProv k := by
  unfold MCtx.psiProv
  rw [cumTrap_scale l (1 / l) (MCtx.h_units hl hf c) fun k => MCtx.curv_units hl hf c hL (k + 1)]
  rw [mul_one_div_cancel hl.ne', one_mul]

theorem MCtx.Dprov_units (c : MCtx K) (hL : c.m.L ≠ 0) (k : ℕ) :
    (c.units l f).Dprov k = l * c.Dprov k := by
  unfold MCtx.Dprov
  rw [cumTrap_scale (y := fun k => c.psiProv k + c.gamma k) l 1 (MCtx.h_units hl hf c) fun k => by
    rw [MCtx.psiProv_units hl hf c hL, MCtx.gamma_units hl hf c hL, one_mul]]
  rw [mul_one]

theorem MCtx.psi0_units (c : MCtx K) (hL : c.m.L ≠ 0) : (c.units l f).psi0 = c.psi0 := by
  have h1 := hl.ne'
  have h2 := hf.ne'
  have e1 : (c.units l f).psiBc = c.psiBc := by
    unfold MCtx.psiBc
    rw [MCtx.Dprov_units hl hf c hL, MCtx.n_units hl hf]
    simp [MCtx.units, Member.units, dispVecUnits, dispUnit]
    rw [← mul_sub, ← mul_sub, mul_div_mul_left _ _ h1]
  have e2 : ∀ e, (c.units l f).psiClosed (f * l ^ 2 * e) = c.psiClosed e := by
    intro e
    unfold MCtx.psiClosed
    simp [MCtx.units, Member.units, dispVecUnits, dispUnit, vecUnits, forceUnit]
    rw [← mul_sub, mul_div_mul_left _ _ h1]
    field_simp
  unfold MCtx.psi0
  rw [MCtx.useBc_units hl hf, e1]
  have e3 : (c.units l f).m.et = c.m.et := rfl
  have e4 : (c.units l f).d 1 = c.d 1 := by simp [MCtx.units, dispVecUnits, dispUnit]
  have e5 : (c.units l f).m.EI = c.m.EI.units l (f * l ^ 2) := rfl
  rw [e3, e4, e5]
  cases c.m.EI with
  | const e => simp only [Rigidity.units, e2]
  | «section» s => rfl

theorem MCtx.psi_units (c : MCtx K) (hL : c.m.L ≠ 0) (k : ℕ) : (c.units l f).psi k = c.psi k := by
  unfold MCtx.psi
  rw [MCtx.psiProv_units hl hf c hL, MCtx.psi0_units hl hf c hL]

theorem MCtx.defl_units (c : MCtx K) (hL : c.m.L ≠ 0) (k : ℕ) :
    (c.units l f).defl k = l * c.defl k := by
  unfold MCtx.defl
  rw [cumTrap_scale (y := fun k => c.psi k + c.gamma k) l 1 (MCtx.h_units hl hf c) fun k => by
    rw [MCtx.psi_units hl hf c hL, MCtx.gamma_units hl hf c hL, one_mul]]
  simp [MCtx.units, dispVecUnits, dispUnit]
  ring

theorem MCtx.result_units (c : MCtx K) (hL : c.m.L ≠ 0) :
    MRes.InUnits l f c.result (c.units l f).result := by
  refine ⟨MCtx.n_units hl hf c, MCtx.x_units hl hf c, MCtx.M_units hl hf c hL,
    MCtx.V_units hl hf c hL, fun k h0 h1 => ?_, fun k h0 h1 => ?_⟩
  · have hk : ¬ c.IsEnd k := by
      simp only [MCtx.result] at h1
      unfold MCtx.IsEnd; omega
    simp only [MCtx.result, MCtx.R]
    rw [if_neg hk, if_neg (by rwa [MCtx.isEnd_units hl hf]), MCtx.psi_units hl hf c hL]
  · have hk : ¬ c.IsEnd k := by
      simp only [MCtx.result] at h1
      unfold MCtx.IsEnd; omega
    simp only [MCtx.result, MCtx.D]
    rw [if_neg hk, if_neg (by rwa [MCtx.isEnd_units hl hf]), MCtx.defl_units hl hf c hL]

theorem Member.ctx_units (m : Member K) (hm : m.Regular) (i : ℕ) (ls : List (SpanLoad K))
    (F d : Vec4 K) (npts : ℕ) (sp : List K) :
    (m.units l f).ctx i (ls.map (SpanLoad.units l f)) (vecUnits l f F) (dispVecUnits l d) npts
      (sp.map (l * ·)) = (m.ctx i ls F d npts sp).map (MCtx.units l f) := by
  have ho : ownLoads i (ls.map (SpanLoad.units l f)) = (ownLoads i ls).map (Load.units l f) := by
    unfold ownLoads
    rw [List.filter_map, List.map_map, List.map_map]
    rfl
  unfold Member.ctx
  rw [ho, mapE_map_arg, mapE_map_res (CNL.units l f) m.cnl _ _ fun ld _ =>
    Member.cnl_units hl hf m hm ld]
  cases mapE m.cnl (ownLoads i ls) with
  | error e => rfl
  | ok cn =>
    simp only [Except.map, MCtx.units, List.map_map, Function.comp_def, CNL.units]
    rw [sum_map_units hl hf cn _ CNL.Ma (f * l) fun _ => rfl,
      sum_map_units hl hf cn _ CNL.Mb (f * l) fun _ => rfl]

/-- **C104**: the results along the members in the other units, at the same numbers of
intervals and the same shear points: stations, moments and shears at all stations, rotations
and deflections at all stations but the two padding stations of each member. -/
theorem C104_results_partial (b : BeamDef K) (hb : ∀ m ∈ b.members, m.Regular)
    (stable stable' : System K → Bool) (solve solve' : Solver K) (hs : solve.Sound)
    (hs' : solve'.Sound) (res res' : Result K) (h : b.analyze stable solve = .ok res)
    (h' : (b.units l f).analyze stable' solve' = .ok res')
    (hns : ∀ s, b.system = .ok s → s.Nonsingular) (npts : ℕ) (sp : ℕ → List K)
    (rs : List (MRes K)) (hr : b.memberResults res npts sp = .ok rs) :
    ∃ rs', (b.units l f).memberResults res' npts (fun i => (sp i).map (l * ·)) = .ok rs' ∧
      List.Forall₂ (MRes.InUnits l f) rs rs' := by
  obtain ⟨hd, _, hfm⟩ := C104_analysis hl hf b hb stable stable' solve solve' hs hs' res res' h h' hns
  unfold BeamDef.memberResults at hr ⊢
  rw [BeamDef.setLoads_units]
  cases hls : b.setLoads with
  | error e => simp [hls] at hr
  | ok ls =>
    simp only [hls, Except.map] at hr ⊢
    have hz : (b.units l f).members.zipIdx
        = b.members.zipIdx.map fun mi => (mi.1.units l f, mi.2) := by
      simp only [BeamDef.units, List.zipIdx_map]
      rfl
    rw [hz, mapE_map_arg]
    have hall : ∀ mi ∈ b.members.zipIdx, ∀ r : MRes K,
        (match mi.1.values mi.2 ls (res.fmbr mi.2) (elemVec res.d mi.2) npts (sp mi.2) with
        | .error e => (.error e : Except PyErr (MRes K))
        | .ok r => .ok
          { r with x := fun k => r.x k + ((b.members.take mi.2).map Member.L).sum }) = .ok r →
        ∃ r', (match (mi.1.units l f).values mi.2 (ls.map (SpanLoad.units l f)) (res'.fmbr mi.2)
            (elemVec res'.d mi.2) npts ((sp mi.2).map (l * ·)) with
        | .error e => (.error e : Except PyErr (MRes K))
        | .ok r => .ok
          { r with x := fun k => r.x k +
            (((b.units l f).members.take mi.2).map Member.L).sum }) = .ok r' ∧
        MRes.InUnits l f r r' := by
      intro mi hmi r hr
      obtain ⟨_, h2, h3⟩ := List.mem_zipIdx hmi
      have hmem : mi.1 ∈ b.members := by rw [h3]; exact List.getElem_mem _
      simp only [zero_add, Nat.sub_zero] at h2
      have e1 : res'.fmbr mi.2 = vecUnits l f (res.fmbr mi.2) := by
        ext a; exact hfm mi.2 h2 a
      have e2 : elemVec res'.d mi.2 = dispVecUnits l (elemVec res.d mi.2) := by
        ext a
        simp only [elemVec, dispVecUnits]
        rw [hd _ (by omega), dispUnit_add]
      have e3 : (((b.units l f).members.take mi.2).map Member.L).sum
          = l * ((b.members.take mi.2).map Member.L).sum := by
        simp only [BeamDef.units, ← List.map_take, List.map_map]
        exact sum_map_units hl hf _ _ _ _ fun _ => rfl
      unfold Member.values at hr ⊢
      rw [e1, e2, e3, Member.ctx_units hl hf mi.1 (hb _ hmem)]
      cases hc : mi.1.ctx mi.2 ls (res.fmbr mi.2) (elemVec res.d mi.2) npts (sp mi.2) with
      | error e => simp [hc] at hr
      | ok c =>
        simp only [hc, Except.map] at hr ⊢
        cases hr
        have hm : c.m = mi.1 := by
          unfold Member.ctx at hc
          split at hc <;> cases hc
          rfl
        obtain ⟨g1, g2, g3, g4, g5, g6⟩ := MCtx.result_units hl hf c (by
          rw [hm]; exact (hb _ hmem).L.ne')
        exact ⟨_, rfl, g1, fun k => by simp only [g2 k]; ring, g3, g4, g5, g6⟩
    exact forall2_mapE _ _ hr hall

end

/-! ### The stability check -/

/-- Two equal spans clamped at both ends: the eigenvalues of the free stiffness. -/
theorem twoSpan_eigs (s : System ℝ) (e L : ℝ) (hn : s.n = 2) (hk0 : s.kb 0 = kFF e L)
    (hk1 : s.kb 1 = kFF e L) (hr : s.r 0 < 0 ∧ s.r 1 < 0 ∧ s.r 2 = 0 ∧ s.r 3 = 0 ∧ s.r 4 < 0 ∧ s.r 5 < 0)
    (hq : ∀ p < 6, s.presc p = none) (hsym : ∀ i < s.n, (s.kb i)ᵀ = s.kb i) :
    s.freeDofs ≠ [] ∧ ∀ v, v ∈ realEigs _ s.kff ↔ v = 24 * e / L ^ 3 ∨ v = 8 * e / L := by
  obtain ⟨r0, r1, r2, r3, r4, r5⟩ := hr
  have hN : s.N = 6 := by simp [System.N, hn]
  have hfree : s.freeDofs = [2, 3] := by
    have h4 : List.range 6 = [0, 1, 2, 3, 4, 5] := by decide
    simp [System.freeDofs, hN, h4, r0, r1, r2, r3, r4, r5, hq]
  have row : ∀ x : ℕ → ℝ, x 0 = 0 → x 1 = 0 → x 4 = 0 → x 5 = 0 →
      mulN s.N s.assemble x 2 = 24 * e / L ^ 3 * x 2 ∧
      mulN s.N s.assemble x 3 = 8 * e / L * x 3 := by
    intro x x0 x1 x4 x5
    rw [s.mulN_assemble _ _ (by omega), s.mulN_assemble _ _ (by omega), hn]
    simp [Finset.sum_range_succ, hk0, hk1, blockVec, mulVec4, elemVec, kFF, x0, x1, x4, x5,
      System.spring, r2, r3]
    constructor <;> ring
  have hmat : ∀ y : Fin s.freeDofs.length → ℝ,
      (s.kff *ᵥ y) ⟨0, by simp [hfree]⟩ = 24 * e / L ^ 3 * y ⟨0, by simp [hfree]⟩ ∧
      (s.kff *ᵥ y) ⟨1, by simp [hfree]⟩ = 8 * e / L * y ⟨1, by simp [hfree]⟩ := by
    intro y
    set x : ℕ → ℝ := fun p => if p = 2 then y ⟨0, by simp [hfree]⟩
      else if p = 3 then y ⟨1, by simp [hfree]⟩ else 0 with hx
    have hx0 : ∀ p < s.N, (s.constr p).isSome → x p = 0 := by
      intro p hp hc
      have : p ∉ s.freeDofs := by
        rw [s.mem_freeDofs]
        rintro ⟨_, h⟩
        rw [h] at hc
        cases hc
      rw [hfree] at this
      simp at this
      simp [hx, this]
    have hy : (fun c : Fin s.freeDofs.length => x s.freeDofs[c]) = y := by
      ext ⟨c, hc⟩
      have : c < 2 := by simpa [hfree] using hc
      interval_cases c <;> simp [hfree, hx]
    have e0 := s.mulN_free x hx0 ⟨0, by simp [hfree]⟩
    have e1 := s.mulN_free x hx0 ⟨1, by simp [hfree]⟩
    rw [hy] at e0 e1
    simp only [Fin.getElem_fin, hfree, List.getElem_cons_zero, List.getElem_cons_succ] at e0 e1
    obtain ⟨w1, w2⟩ := row x (by simp [hx]) (by simp [hx]) (by simp [hx]) (by simp [hx])
    rw [← e0, ← e1, w1, w2]
    simp [hx]
  have hsy := s.kff_symm hsym
  refine ⟨by simp [hfree], fun v => ?_⟩
  rw [realEigs_sound _ _ hsy]
  constructor
  · rintro ⟨y, hy0, hy⟩
    obtain ⟨m0, m1⟩ := hmat y
    rw [hy] at m0 m1
    simp only [Pi.smul_apply, smul_eq_mul] at m0 m1
    by_contra hne
    push Not at hne
    apply hy0
    ext ⟨c, hc⟩
    have : c < 2 := by simpa [hfree] using hc
    interval_cases c
    · have : (v - 24 * e / L ^ 3) * y ⟨0, by simp [hfree]⟩ = 0 := by linear_combination m0
      exact (mul_eq_zero.1 this).resolve_left (sub_ne_zero.2 hne.1)
    · have : (v - 8 * e / L) * y ⟨1, by simp [hfree]⟩ = 0 := by linear_combination m1
      exact (mul_eq_zero.1 this).resolve_left (sub_ne_zero.2 hne.2)
  · rintro (rfl | rfl)
    · refine ⟨fun c => if c.1 = 0 then 1 else 0, ?_, ?_⟩
      · intro h
        have := congrFun h ⟨0, by simp [hfree]⟩
        simp at this
      · obtain ⟨m0, m1⟩ := hmat fun c => if c.1 = 0 then 1 else 0
        ext ⟨c, hc⟩
        have : c < 2 := by simpa [hfree] using hc
        interval_cases c
        · rw [m0]; simp
        · rw [m1]; simp
    · refine ⟨fun c => if c.1 = 1 then 1 else 0, ?_, ?_⟩
      · intro h
        have := congrFun h ⟨1, by simp [hfree]⟩
        simp at this
      · obtain ⟨m0, m1⟩ := hmat fun c => if c.1 = 1 then 1 else 0
        ext ⟨c, hc⟩
        have : c < 2 := by simpa [hfree] using hc
        interval_cases c
        · rw [m0]; simp
        · rw [m1]; simp

theorem check_of_two (s : System ℝ) (u v : ℝ) (hu : 0 < u) (huv : u ≤ v) (hfree : s.freeDofs ≠ [])
    (he : ∀ w, w ∈ realEigs _ s.kff ↔ w = u ∨ w = v) :
    s.checkStability realEigs = decide (1 / 10 ^ 12 ≤ u / v) := by
  unfold System.checkStability
  rw [if_neg hfree]
  set ev := (realEigs _ s.kff).map fun x => |x| with hev
  have hv : 0 < v := hu.trans_le huv
  have hmem : ∀ w, w ∈ ev ↔ w = u ∨ w = v := by
    intro w
    rw [hev, List.mem_map]
    constructor
    · rintro ⟨z, hz, rfl⟩
      rcases (he z).1 hz with rfl | rfl
      · left; exact abs_of_pos hu
      · right; exact abs_of_pos hv
    · rintro (rfl | rfl)
      · exact ⟨w, (he _).2 (Or.inl rfl), abs_of_pos hu⟩
      · exact ⟨w, (he _).2 (Or.inr rfl), abs_of_pos hv⟩
  have hmx : ev.max? = some v := by
    rw [List.max?_eq_some_iff]
    refine ⟨(hmem v).2 (Or.inr rfl), fun b hb => ?_⟩
    rcases (hmem b).1 hb with rfl | rfl
    · exact huv
    · exact le_rfl
  have hmn : ev.min? = some u := by
    rw [List.min?_eq_some_iff]
    refine ⟨(hmem u).2 (Or.inl rfl), fun b hb => ?_⟩
    rcases (hmem b).1 hb with rfl | rfl
    · exact le_rfl
    · exact huv
  simp only [hmx, hmn, stabilityRcond]
  simp [hv.ne', not_lt]

/-- Two spans of two metres, clamped at both ends, with no support in between. -/
noncomputable def exClamped : BeamDef ℝ :=
  ⟨[⟨.const 1, 2, .FF, none⟩, ⟨.const 1, 2, .FF, none⟩], [-1, -1, 0, 0, -1, -1],
    [none, none, none, none, none, none], [⟨1, 1, [1]⟩]⟩

theorem exClamped_regular : ∀ m ∈ exClamped.members, m.Regular := by
  simp only [exClamped, List.mem_cons, List.not_mem_nil, or_false, or_self, forall_eq]
  exact ⟨by norm_num, by simp, by simp [Rigidity.Within, Rigidity.bps], by simp⟩

/-- **C104**, the stability check: a beam that is accepted in metres is rejected as unstable in
micrometres, because the check compares the eigenvalues of a matrix whose entries have
different units. -/
theorem C104_stability_violation : ∃ (b : BeamDef ℝ) (l f : ℝ) (s s' : System ℝ),
    (∀ m ∈ b.members, m.Regular) ∧ 0 < l ∧ 0 < f ∧
    b.system = .ok s ∧ (b.units l f).system = .ok s' ∧ s.Nonsingular ∧ s'.Nonsingular ∧
    s.checkStability realEigs = true ∧ s'.checkStability realEigs = false := by
  obtain ⟨s, hs⟩ : ∃ s, exClamped.system = .ok s := ⟨_, rfl⟩
  have hl : (0 : ℝ) < 10 ^ 6 := by positivity
  obtain ⟨s', hs', hu⟩ := BeamDef.system_units hl one_pos exClamped exClamped_regular s hs
  obtain ⟨hn, hk, _, hr, hq, _⟩ := BeamDef.system_ok hs
  have hn2 : s.n = 2 := hn
  have hN : s.N = 6 := by simp [System.N, hn2]
  have hk0 : s.kb 0 = kFF 1 2 := by
    have := hk 0 (by simp [exClamped])
    simp [exClamped, Member.spanK] at this
    exact this.symm
  have hk1 : s.kb 1 = kFF 1 2 := by
    have := hk 1 (by simp [exClamped])
    simp [exClamped, Member.spanK] at this
    exact this.symm
  have hr6 : s.r 0 < 0 ∧ s.r 1 < 0 ∧ s.r 2 = 0 ∧ s.r 3 = 0 ∧ s.r 4 < 0 ∧ s.r 5 < 0 := by
    simp [hr, exClamped]
  have hq6 : ∀ p < 6, s.presc p = none := by
    intro p hp
    interval_cases p <;> simp [hq, exClamped]
  obtain ⟨f1, e1⟩ := twoSpan_eigs s 1 2 hn2 hk0 hk1 hr6 hq6 (BeamDef.system_symm hs)
  have ck := check_of_two s 3 4 (by norm_num) (by norm_num) f1 (fun w => by
    rw [e1]; norm_num)
  have hN' : ∀ p, p < 6 → p < s.N := fun p h => by omega
  obtain ⟨f2, e2⟩ := twoSpan_eigs s' (1 * (10 ^ 6) ^ 2 * 1) (10 ^ 6 * 2) (by rw [hu.n, hn2])
    (by rw [hu.kb 0 (by omega), hk0, kFF_units hl one_pos _ _ (by norm_num)])
    (by rw [hu.kb 1 (by omega), hk1, kFF_units hl one_pos _ _ (by norm_num)])
    (by
      rw [hu.r 0 (by omega), hu.r 1 (by omega), hu.r 2 (by omega), hu.r 3 (by omega),
        hu.r 4 (by omega), hu.r 5 (by omega)]
      simp [hr, exClamped, forceUnit, dispUnit])
    (fun p hp => by rw [hu.presc p (by omega), hq6 p hp]; rfl)
    (BeamDef.system_symm hs')
  have ck' := check_of_two s' (3 / 10 ^ 6) (4 * 10 ^ 6) (by norm_num) (by norm_num) f2 (fun w => by
    rw [e2]; norm_num)
  have c1 : s.checkStability realEigs = true := by rw [ck]; norm_num
  have hns := (C23_accepted_unique _ s hs realEigs realEigs_sound c1).1
  exact ⟨exClamped, 10 ^ 6, 1, s, s', exClamped_regular, hl, one_pos, hs, hs', hns,
    (hu.image hl one_pos).nonsingular hns, c1, by rw [ck']; norm_num⟩

/-! ### The padding stations -/

/-- A span of 2 with a distributed load. -/
def exSpanQ : BeamDef ℚ :=
  ⟨[⟨.const 6, 2, .FF, none⟩], [-1, 0, -1, 0], [none, none, none, none], [⟨1, 1, [3]⟩]⟩

theorem exSpanQ_regular : ∀ m ∈ exSpanQ.members, m.Regular := by
  simp only [exSpanQ, List.mem_cons, List.not_mem_nil, or_false, forall_eq]
  exact ⟨by norm_num, by simp, by simp [Rigidity.Within, Rigidity.bps], by simp⟩

theorem exSpanQ_nonsingular (s : System ℚ) (hs : exSpanQ.system = .ok s) : s.Nonsingular :=
  C77_adequate_supports exSpanQ (by simp [exSpanQ, Member.Good, Rigidity.Good]) s hs 0 1
    (by simp) (by simp [exSpanQ]) (by simp [exSpanQ]) (Or.inl (by simp [exSpanQ]))

/-- **C104**, the padding stations: the rotations reported at the first and last station of a
member are not rotations and depend on the units (here on the unit of force as well). -/
theorem C104_padding_violation : ∃ (b : BeamDef ℚ) (l f : ℚ) (solve solve' : Solver ℚ)
    (res res' : Result ℚ) (r r' : MRes ℚ),
    (∀ m ∈ b.members, m.Regular) ∧ 0 < l ∧ 0 < f ∧ solve.Sound ∧ solve'.Sound ∧
    (∀ s, b.system = .ok s → s.Nonsingular) ∧
    b.analyze (fun _ => true) solve = .ok res ∧
    (b.units l f).analyze (fun _ => true) solve' = .ok res' ∧
    b.memberResults res 2 (fun _ => []) = .ok [r] ∧
    (b.units l f).memberResults res' 2 (fun _ => []) = .ok [r'] ∧
    r'.R 1 = r.R 1 ∧ r'.R 0 ≠ r.R 0 := by
  obtain ⟨p, h1, h2⟩ := ok_of_map (x := exResults exSpanQ [0, -1 / 6, 0, 1 / 6] 2)
    (f := fun p => (p.2.length, p.2.map (MRes.R · 0), p.2.map (MRes.R · 1))) (y := (1, [-1], [-1 / 6]))
    (by decide +kernel)
  obtain ⟨p', h1', h2'⟩ := ok_of_map
    (x := exResults (exSpanQ.units 1000 (1 / 10)) [0, -1 / 6, 0, 1 / 6] 2)
    (f := fun p => (p.2.length, p.2.map (MRes.R · 0), p.2.map (MRes.R · 1)))
    (y := (1, [-100000], [-1 / 6])) (by decide +kernel)
  obtain ⟨a1, a2⟩ := exResults_ok h1
  obtain ⟨b1, b2⟩ := exResults_ok h1'
  obtain ⟨q, rs⟩ := p
  obtain ⟨q', rs'⟩ := p'
  simp only [Prod.mk.injEq] at h2 h2' a1 a2 b1 b2
  obtain ⟨c1, c2, c3⟩ := h2
  obtain ⟨d1, d2, d3⟩ := h2'
  obtain ⟨r, rfl⟩ := List.length_eq_one_iff.1 c1
  obtain ⟨r', rfl⟩ := List.length_eq_one_iff.1 d1
  simp only [List.map_cons, List.map_nil, List.cons.injEq, and_true] at c2 c3 d2 d3
  exact ⟨exSpanQ, 1000, 1 / 10, _, _, q, q', r, r', exSpanQ_regular, by norm_num, by norm_num,
    trySolver_sound _, trySolver_sound _, exSpanQ_nonsingular, a1, b1, a2, b2, by rw [c3, d3],
    by rw [c2, d2]; norm_num⟩

/-- C104 at that span: rotations at the midspan station keep their value, the moment there
is 100 times as large. -/
example : ∃ (b : BeamDef ℚ) (res res' : Result ℚ) (r r' : MRes ℚ),
    b.memberResults res 2 (fun _ => []) = .ok [r] ∧
    (b.units 1000 (1 / 10)).memberResults res' 2 (fun _ => []) = .ok [r'] ∧
    r'.M 2 = 100 * r.M 2 ∧ r.M 2 = 3 / 2 ∧ res'.fmbr 0 0 = 1 / 10 * res.fmbr 0 0 ∧
    res.fmbr 0 0 = 3 := by
  obtain ⟨p, h1, h2⟩ := ok_of_map (x := exResults exSpanQ [0, -1 / 6, 0, 1 / 6] 2)
    (f := fun p => (p.2.map (MRes.M · 2), p.1.fmbr 0 0)) (y := ([3 / 2], 3)) (by decide +kernel)
  obtain ⟨p', h1', -⟩ := ok_of_map
    (x := exResults (exSpanQ.units 1000 (1 / 10)) [0, -1 / 6, 0, 1 / 6] 2)
    (f := fun p => p.2.length) (y := 1) (by decide +kernel)
  obtain ⟨a1, a2⟩ := exResults_ok h1
  obtain ⟨b1, b2⟩ := exResults_ok h1'
  obtain ⟨q, rs⟩ := p
  simp only [Prod.mk.injEq] at h2
  obtain ⟨rs', e1, e2⟩ := C104_results_partial (l := 1000) (f := 1 / 10) (by norm_num) (by norm_num)
    exSpanQ exSpanQ_regular _ _ _ _ (trySolver_sound _) (trySolver_sound _) q p'.1 a1 b1
    exSpanQ_nonsingular 2 _ rs a2
  obtain ⟨_, _, g⟩ := C104_analysis (l := 1000) (f := 1 / 10) (by norm_num) (by norm_num)
    exSpanQ exSpanQ_regular _ _ _ _ (trySolver_sound _) (trySolver_sound _) q p'.1 a1 b1
    exSpanQ_nonsingular
  have hlen : rs.length = 1 := by simpa using congrArg List.length h2.1
  obtain ⟨r, rfl⟩ := List.length_eq_one_iff.1 hlen
  simp only [List.map_cons, List.map_nil, List.cons.injEq, and_true] at h2
  cases e2 with
  | cons hr ht =>
    cases ht
    refine ⟨exSpanQ, q, p'.1, r, _, a2, e1, ?_, h2.1, ?_, h2.2⟩
    · rw [hr.M]; norm_num
    · have := g 0 (by simp [exSpanQ]) 0
      simpa [forceUnit] using this

end PyCBA
