import Verif.Results.Props

set_option linter.unusedSectionVars false
set_option linter.unusedSimpArgs false

/-!
Linearity of the whole chain load matrix → analysis → results along the members, for
any number of load cases at once (used for C36, C60).
-/

namespace PyCBA

open Matrix

variable {K : Type*} [Field K] [LinearOrder K] [IsStrictOrderedRing K]

/-- The combination of the values `g a` with the factors `w a`. -/
def lsum {α : Type*} (cs : List α) (w g : α → K) : K := (cs.map fun a => w a * g a).sum

theorem lsum_cons {α : Type*} (a : α) (cs : List α) (w g : α → K) :
    lsum (a :: cs) w g = w a * g a + lsum cs w g := by simp [lsum]

theorem lsum_nil {α : Type*} (w g : α → K) : lsum [] w g = 0 := by simp [lsum]

theorem lsum_congr {α : Type*} {cs : List α} {w g g' : α → K} (h : ∀ a ∈ cs, g a = g' a) :
    lsum cs w g = lsum cs w g' := by
  unfold lsum
  exact congrArg List.sum (List.map_congr_left fun a ha => by rw [h a ha])

theorem lsum_add {α : Type*} (cs : List α) (w g g' : α → K) :
    lsum cs w (fun a => g a + g' a) = lsum cs w g + lsum cs w g' := by
  induction cs with
  | nil => simp [lsum_nil]
  | cons a cs ih => simp only [lsum_cons, ih]; ring

theorem lsum_sub {α : Type*} (cs : List α) (w g g' : α → K) :
    lsum cs w (fun a => g a - g' a) = lsum cs w g - lsum cs w g' := by
  induction cs with
  | nil => simp [lsum_nil]
  | cons a cs ih => simp only [lsum_cons, ih]; ring

theorem lsum_neg {α : Type*} (cs : List α) (w g : α → K) :
    lsum cs w (fun a => -g a) = -lsum cs w g := by
  induction cs with
  | nil => simp [lsum_nil]
  | cons a cs ih => simp only [lsum_cons, ih]; ring

theorem lsum_mul {α : Type*} (cs : List α) (w g : α → K) (v : K) :
    lsum cs w (fun a => v * g a) = v * lsum cs w g := by
  induction cs with
  | nil => simp [lsum_nil]
  | cons a cs ih => simp only [lsum_cons, ih]; ring

theorem lsum_mul_right {α : Type*} (cs : List α) (w g : α → K) (v : K) :
    lsum cs w (fun a => g a * v) = lsum cs w g * v := by
  induction cs with
  | nil => simp [lsum_nil]
  | cons a cs ih => simp only [lsum_cons, ih]; ring

theorem lsum_div {α : Type*} (cs : List α) (w g : α → K) (v : K) :
    lsum cs w (fun a => g a / v) = lsum cs w g / v := by
  simp only [div_eq_mul_inv]
  exact lsum_mul_right cs w g v⁻¹

theorem lsum_const {α : Type*} (cs : List α) (w : α → K) (v : K) :
    lsum cs w (fun _ => v) = (cs.map w).sum * v := by
  induction cs with
  | nil => simp [lsum_nil]
  | cons a cs ih => simp only [lsum_cons, ih, List.map_cons, List.sum_cons]; ring

theorem lsum_zero {α : Type*} (cs : List α) (w g : α → K) (h : ∀ a ∈ cs, g a = 0) :
    lsum cs w g = 0 := by
  rw [lsum_congr (g' := fun _ => 0) h, lsum_const, mul_zero]

theorem lsum_finset {α ι : Type*} (cs : List α) (w : α → K) (s : Finset ι) (g : ι → α → K) :
    lsum cs w (fun a => ∑ i ∈ s, g i a) = ∑ i ∈ s, lsum cs w (g i) := by
  induction cs with
  | nil => simp [lsum_nil]
  | cons a cs ih =>
    simp only [lsum_cons, ih, Finset.mul_sum, Finset.sum_add_distrib]

theorem cumTrap_lsum {α : Type*} (cs : List α) (w : α → K) (h : ℕ → K) (y : α → ℕ → K) (k : ℕ) :
    cumTrap h (fun j => lsum cs w fun a => y a j) k = lsum cs w fun a => cumTrap h (y a) k := by
  induction k with
  | zero => simp only [cumTrap]; rw [lsum_zero]; simp
  | succ k ih =>
    simp only [cumTrap, ih, lsum_add, lsum_div, lsum_mul]

/-! ### Systems -/

/-- Several load cases (with factors) on the structure of `s`, whose loads are their
combination, and whose constraints all cases share. -/
structure System.IsLin {α : Type*} (s : System K) (cs : List α) (w : α → K) (sy : α → System K) :
    Prop where
  n : ∀ a ∈ cs, (sy a).n = s.n
  kb : ∀ a ∈ cs, ∀ i < s.n, (sy a).kb i = s.kb i
  r : ∀ a ∈ cs, ∀ p, (sy a).r p = s.r p
  ref : ∀ i < s.n, ∀ j, s.ref i j = lsum cs w fun a => (sy a).ref i j
  c : ∀ a ∈ cs, ∀ p, (sy a).constr p = s.constr p
  v : ∀ p < s.N, ∀ v, s.constr p = some v → v = (cs.map w).sum * v

theorem mulN_lsum {α : Type*} (N : ℕ) (k : ℕ → ℕ → K) (cs : List α) (w : α → K) (d : α → ℕ → K)
    (p : ℕ) :
    mulN N k (fun q => lsum cs w fun a => d a q) p = lsum cs w fun a => mulN N k (d a) p := by
  simp only [mulN, lsum_finset, lsum_mul]

theorem System.IsLin.superpose {α : Type*} {s : System K} {cs : List α} {w : α → K}
    {sy : α → System K} (h : s.IsLin cs w sy) (hns : s.Nonsingular) {solve : Solver K}
    (hs : solve.Sound) {res : Result K} (hres : s.analyze solve = .ok res)
    (rs : α → Result K) (hrs : ∀ a ∈ cs, (sy a).analyze solve = .ok (rs a)) :
    (∀ p < s.N, res.d p = lsum cs w fun a => (rs a).d p) ∧
    (∀ i < s.n, ∀ j, res.fmbr i j = lsum cs w fun a => (rs a).fmbr i j) := by
  obtain ⟨c1, _, _, c4, _⟩ := System.analyze_ok hs hres
  have hN : ∀ a ∈ cs, (sy a).N = s.N := fun a ha => by simp [System.N, h.n a ha]
  have hsol : s.IsSolution fun q => lsum cs w fun a => (rs a).d q := by
    constructor
    · intro p hp v hv
      show lsum cs w (fun a => (rs a).d p) = v
      rw [lsum_congr (g' := fun _ => v), lsum_const]
      · exact (h.v p hp v hv).symm
      · intro a ha
        obtain ⟨a1, _⟩ := System.analyze_ok hs (hrs a ha)
        exact a1.1 p (by rw [hN a ha]; exact hp) v (by rw [h.c a ha]; exact hv)
    · intro p hp hv
      simp only [System.residual, mulN_lsum, System.forces_eq]
      have e1 : ∀ a ∈ cs, mulN s.N s.assemble (rs a).d p =
          -∑ i ∈ Finset.range s.n, blockVec (2 * i) ((sy a).ref i) p := by
        intro a ha
        obtain ⟨a1, _⟩ := System.analyze_ok hs (hrs a ha)
        have := a1.2 p (by rw [hN a ha]; exact hp) (by rw [h.c a ha]; exact hv)
        simp only [System.residual, System.forces_eq, hN a ha, h.n a ha,
          System.assemble_congr (h.n a ha) (h.kb a ha) (h.r a ha)] at this
        linear_combination this
      rw [lsum_congr e1, lsum_neg, lsum_finset]
      have e2 : ∀ i ∈ Finset.range s.n, blockVec (2 * i) (s.ref i) p =
          lsum cs w fun a => blockVec (2 * i) ((sy a).ref i) p := by
        intro i hi
        unfold blockVec
        split
        · exact h.ref i (Finset.mem_range.1 hi) _
        · rw [lsum_zero]
          simp
      rw [Finset.sum_congr rfl e2]
      ring
  have hd : ∀ p < s.N, res.d p = lsum cs w fun a => (rs a).d p :=
    fun p hp => System.IsSolution.unique hns c1 hsol p hp
  refine ⟨hd, fun i hi j => ?_⟩
  have e1 : ∀ a ∈ cs, (rs a).fmbr i j = (s.kb i *ᵥ elemVec (rs a).d i) j + (sy a).ref i j := by
    intro a ha
    obtain ⟨_, _, _, a4, _⟩ := System.analyze_ok hs (hrs a ha)
    rw [a4]
    simp only [System.endForces, Pi.add_apply, h.kb a ha i hi]
  rw [lsum_congr e1, lsum_add, c4]
  simp only [System.endForces, Pi.add_apply, h.ref i hi j, mulVec4, elemVec, lsum_add, lsum_mul]
  have hlt : ∀ q : Fin 4, 2 * i + (q : ℕ) < s.N := by
    intro q
    have := q.isLt
    simp only [System.N]
    omega
  rw [hd _ (hlt 0), hd _ (hlt 1), hd _ (hlt 2), hd _ (hlt 3)]

/-! ### Member results -/

/-- `c` is the member context of the combination of the contexts `cx a`. -/
structure MCtx.IsLin {α : Type*} (c : MCtx K) (cs : List α) (w : α → K) (cx : α → MCtx K) :
    Prop where
  m : ∀ a ∈ cs, (cx a).m = c.m
  npts : ∀ a ∈ cs, (cx a).npts = c.npts
  sp : ∀ a ∈ cs, (cx a).sp = c.sp
  f : ∀ j, c.f j = lsum cs w fun a => (cx a).f j
  d : ∀ j, c.d j = lsum cs w fun a => (cx a).d j
  Ma : c.Ma = lsum cs w fun a => (cx a).Ma
  Mb : c.Mb = lsum cs w fun a => (cx a).Mb
  own : ∀ φ : Load K → K, (∀ g ld, φ (ld.scale g) = g * φ ld) →
    (c.own.map φ).sum = lsum cs w fun a => ((cx a).own.map φ).sum

namespace MCtx.IsLin

variable {α : Type*} {c : MCtx K} {cs : List α} {w : α → K} {cx : α → MCtx K}

theorem grid (h : c.IsLin cs w cx) (a : α) (ha : a ∈ cs) : (cx a).grid = c.grid := by
  simp only [MCtx.grid, h.m a ha, h.npts a ha, h.sp a ha]

theorem n (h : c.IsLin cs w cx) (a : α) (ha : a ∈ cs) : (cx a).n = c.n := by
  simp only [MCtx.n, h.grid a ha]

theorem x (h : c.IsLin cs w cx) (a : α) (ha : a ∈ cs) : (cx a).x = c.x := by
  simp only [MCtx.x, h.grid a ha]

theorem h' (h : c.IsLin cs w cx) (a : α) (ha : a ∈ cs) : (cx a).h = c.h := by
  funext j
  simp only [MCtx.h, h.m a ha, h.npts a ha, h.sp a ha, h.x a ha]

theorem isEnd (h : c.IsLin cs w cx) (a : α) (ha : a ∈ cs) (k : ℕ) : (cx a).IsEnd k ↔ c.IsEnd k := by
  simp only [MCtx.IsEnd, h.n a ha]

theorem M (h : c.IsLin cs w cx) (k : ℕ) : c.M k = lsum cs w fun a => (cx a).M k := by
  by_cases he : c.IsEnd k
  · rw [MCtx.M, if_pos he, lsum_zero]
    intro a ha
    rw [MCtx.M, if_pos ((h.isEnd a ha k).2 he)]
  · rw [MCtx.M, if_neg he]
    have : ∀ a ∈ cs, (cx a).M k = (((cx a).f 1 + (cx a).f 3) / c.m.L * c.x k - (cx a).f 1) +
        ((cx a).own.map fun l => l.ssM c.m.L (c.x k)).sum := by
      intro a ha
      rw [MCtx.M, if_neg (fun he' => he ((h.isEnd a ha k).1 he'))]
      simp only [mambStn, h.m a ha, h.x a ha]
    rw [lsum_congr this]
    simp only [lsum_add, lsum_sub, lsum_mul_right, lsum_div]
    rw [← h.own (fun l => l.ssM c.m.L (c.x k)) (fun g ld => ssM_scale g ld _ _), ← h.f, ← h.f]
    simp only [mambStn]

theorem V (h : c.IsLin cs w cx) (k : ℕ) : c.V k = lsum cs w fun a => (cx a).V k := by
  by_cases he : c.IsEnd k
  · rw [MCtx.V, if_pos he, lsum_zero]
    intro a ha
    rw [MCtx.V, if_pos ((h.isEnd a ha k).2 he)]
  · rw [MCtx.V, if_neg he]
    have : ∀ a ∈ cs, (cx a).V k = (((cx a).f 1 + (cx a).f 3) / c.m.L) +
        ((cx a).own.map fun l => l.ssV c.m.L (c.x k)).sum := by
      intro a ha
      rw [MCtx.V, if_neg (fun he' => he ((h.isEnd a ha k).1 he'))]
      simp only [mambStn, h.m a ha, h.x a ha]
    rw [lsum_congr this]
    simp only [lsum_add, lsum_div]
    rw [← h.own (fun l => l.ssV c.m.L (c.x k)) (fun g ld => ssV_scale g ld _ _), ← h.f, ← h.f]
    simp only [mambStn]

theorem kappa (h : c.IsLin cs w cx) (k : ℕ) : c.kappa k = lsum cs w fun a => (cx a).kappa k := by
  have : ∀ a ∈ cs, (cx a).kappa k = ((cx a).own.map fun l => l.kappaImp (c.x k)).sum := by
    intro a ha
    simp only [MCtx.kappa, h.x a ha]
  rw [lsum_congr this, ← h.own (fun l => l.kappaImp (c.x k)) (fun g ld => kappaImp_scale g ld _)]
  rfl

theorem curv (h : c.IsLin cs w cx) (k : ℕ) : c.curv k = lsum cs w fun a => (cx a).curv k := by
  have : ∀ a ∈ cs, (cx a).curv k = (cx a).M k / c.m.EI.eval (c.x k) + (cx a).kappa k := by
    intro a ha
    simp only [MCtx.curv, h.x a ha, h.m a ha]
  rw [lsum_congr this, lsum_add, lsum_div, ← h.M, ← h.kappa]
  rfl

theorem gamma (h : c.IsLin cs w cx) (k : ℕ) : c.gamma k = lsum cs w fun a => (cx a).gamma k := by
  rcases hg : c.m.GAv with _ | g
  · rw [lsum_zero]
    · simp only [MCtx.gamma, hg]
    · intro a ha
      simp only [MCtx.gamma, h.m a ha, hg]
  · have : ∀ a ∈ cs, (cx a).gamma k = -(cx a).V (k + 1) / g.eval (c.x (k + 1)) := by
      intro a ha
      simp only [MCtx.gamma, h.m a ha, hg, h.x a ha]
    rw [lsum_congr this, lsum_div, lsum_neg, ← h.V]
    simp only [MCtx.gamma, hg]

theorem psiProv (h : c.IsLin cs w cx) (k : ℕ) :
    c.psiProv k = lsum cs w fun a => (cx a).psiProv k := by
  have : ∀ a ∈ cs, (cx a).psiProv k = cumTrap c.h (fun j => (cx a).curv (j + 1)) k := by
    intro a ha
    simp only [MCtx.psiProv, h.h' a ha]
  rw [lsum_congr this, ← cumTrap_lsum]
  simp only [MCtx.psiProv, h.curv]

theorem Dprov (h : c.IsLin cs w cx) (k : ℕ) : c.Dprov k = lsum cs w fun a => (cx a).Dprov k := by
  have : ∀ a ∈ cs, (cx a).Dprov k =
      cumTrap c.h (fun j => (cx a).psiProv j + (cx a).gamma j) k := by
    intro a ha
    simp only [MCtx.Dprov, h.h' a ha]
  rw [lsum_congr this, ← cumTrap_lsum]
  simp only [MCtx.Dprov, lsum_add, h.psiProv, h.gamma]

theorem psiBc (h : c.IsLin cs w cx) : c.psiBc = lsum cs w fun a => (cx a).psiBc := by
  have : ∀ a ∈ cs, (cx a).psiBc = ((cx a).d 2 - (cx a).d 0 - (cx a).Dprov (c.n - 3)) / c.m.L := by
    intro a ha
    simp only [MCtx.psiBc, h.n a ha, h.m a ha]
  rw [lsum_congr this, lsum_div, lsum_sub, lsum_sub, ← h.d, ← h.d, ← h.Dprov]
  rfl

theorem psiClosed (h : c.IsLin cs w cx) (EI : K) :
    c.psiClosed EI = lsum cs w fun a => (cx a).psiClosed EI := by
  have : ∀ a ∈ cs, (cx a).psiClosed EI = ((cx a).d 2 - (cx a).d 0) / c.m.L -
      (c.m.L / (3 * EI)) * (-((cx a).f 1 - 1 / 2 * (cx a).f 3) +
        ((cx a).Ma - 1 / 2 * (cx a).Mb)) := by
    intro a ha
    simp only [MCtx.psiClosed, h.m a ha]
  rw [lsum_congr this]
  simp only [lsum_sub, lsum_div, lsum_mul, lsum_add, lsum_neg]
  rw [← h.d, ← h.d, ← h.f, ← h.f, ← h.Ma, ← h.Mb]
  rfl

theorem psi0 (h : c.IsLin cs w cx)
    (hbc : c.m.et = .FF ∨ ∀ a ∈ cs, (cx a).useBc = c.useBc) :
    c.psi0 = lsum cs w fun a => (cx a).psi0 := by
  by_cases het : c.m.et = .FF
  · have : ∀ a ∈ cs, (cx a).psi0 = (cx a).d 1 := by
      intro a ha
      simp only [MCtx.psi0, h.m a ha, het, if_true]
    rw [lsum_congr this, ← h.d]
    simp only [MCtx.psi0, het, if_true]
  · have hbc' := hbc.resolve_left het
    by_cases hu : c.useBc = true
    · have : ∀ a ∈ cs, (cx a).psi0 = (cx a).psiBc := by
        intro a ha
        simp only [MCtx.psi0, h.m a ha, het, if_false, hbc' a ha, hu, if_true]
      rw [lsum_congr this, ← h.psiBc]
      simp only [MCtx.psi0, het, if_false, hu, if_true]
    · rcases hE : c.m.EI with e | s
      · have : ∀ a ∈ cs, (cx a).psi0 = (cx a).psiClosed e := by
          intro a ha
          simp only [MCtx.psi0, h.m a ha, het, if_false, hbc' a ha, hu, hE]
          simp
        rw [lsum_congr this, ← h.psiClosed]
        simp only [MCtx.psi0, het, if_false, hu, hE]
        simp
      · exfalso
        apply hu
        simp [MCtx.useBc, hE]

theorem psi (h : c.IsLin cs w cx) (hbc : c.m.et = .FF ∨ ∀ a ∈ cs, (cx a).useBc = c.useBc) (k : ℕ) :
    c.psi k = lsum cs w fun a => (cx a).psi k := by
  simp only [MCtx.psi, lsum_add]
  rw [← h.psiProv, ← h.psi0 hbc]

theorem defl (h : c.IsLin cs w cx) (hbc : c.m.et = .FF ∨ ∀ a ∈ cs, (cx a).useBc = c.useBc)
    (k : ℕ) : c.defl k = lsum cs w fun a => (cx a).defl k := by
  have : ∀ a ∈ cs, (cx a).defl k =
      cumTrap c.h (fun j => (cx a).psi j + (cx a).gamma j) k + (cx a).d 0 := by
    intro a ha
    simp only [MCtx.defl, h.h' a ha]
  rw [lsum_congr this, lsum_add, ← cumTrap_lsum, ← h.d]
  simp only [MCtx.defl, lsum_add, h.psi hbc, h.gamma]

end MCtx.IsLin

theorem cumTrap_mul (g : K) (h y : ℕ → K) (k : ℕ) :
    cumTrap h (fun j => g * y j) k = g * cumTrap h y k := by
  induction k with
  | zero => simp [cumTrap]
  | succ k ih => rw [cumTrap, cumTrap, ih]; ring

theorem ssRD_scale (g : K) (ld : Load K) (L : K) (n : ℕ) (x : ℕ → K) (k : ℕ) :
    (ld.scale g).ssRD L n x k = (g * (ld.ssRD L n x k).1, g * (ld.ssRD L n x k).2) := by
  have key : ∀ l l' : Load K, l'.stn L (x k) = (l.stn L (x k)).map (g • ·) →
      (∀ a b, l ≠ .ic a b) → (∀ a b, l' ≠ .ic a b) →
      l'.ssRD L n x k = (g * (l.ssRD L n x k).1, g * (l.ssRD L n x k).2) := by
    intro l l' h h1 h2
    have e : ∀ l : Load K, (∀ a b, l ≠ .ic a b) →
        l.ssRD L n x k = match l.stn L (x k) with | some s => (s.R, s.D) | none => (0, 0) := by
      intro l hl
      cases l with
      | ic a b => exact absurd rfl (hl a b)
      | _ => rfl
    rw [e l h1, e l' h2, h]
    cases l.stn L (x k) with
    | none => simp
    | some s => simp [Stn.smul_def]
  cases hld : ld with
  | ic kp EI =>
    simp only [Load.scale, Load.ssRD, polyInc_scale]
    have e1 : ∀ (h : ℕ → K) (y : ℕ → K), cumTrap h (fun j => g * y j) =
        fun k => g * cumTrap h y k := fun h y => funext fun k => cumTrap_mul g h y k
    simp only [e1]
    refine Prod.ext ?_ ?_ <;> simp only <;> ring
  | _ => exact key _ _ (stn_scale g _ L (x k)) (by simp) (by simp [Load.scale])

namespace MCtx.IsLin

variable {α : Type*} {c : MCtx K} {cs : List α} {w : α → K} {cx : α → MCtx K}

theorem R (h : c.IsLin cs w cx) (hbc : c.m.et = .FF ∨ ∀ a ∈ cs, (cx a).useBc = c.useBc) (k : ℕ) :
    c.R k = lsum cs w fun a => (cx a).R k := by
  by_cases he : c.IsEnd k
  · rw [MCtx.R, if_pos he]
    have : ∀ a ∈ cs, (cx a).R k = (mambStn ((cx a).f 1) ((cx a).f 3) c.m.L (c.x k)).R +
        ((cx a).own.map fun l => (l.ssRD c.m.L c.n c.x k).1).sum := by
      intro a ha
      rw [MCtx.R, if_pos ((h.isEnd a ha k).2 he)]
      simp only [h.m a ha, h.x a ha, h.n a ha]
    rw [lsum_congr this]
    simp only [lsum_add]
    rw [← h.own (fun l => (l.ssRD c.m.L c.n c.x k).1) (fun g ld => by rw [ssRD_scale])]
    simp only [mambStn, lsum_add, lsum_sub, lsum_mul, lsum_div, lsum_mul_right, lsum_neg]
    rw [← h.f, ← h.f]
  · rw [MCtx.R, if_neg he, h.psi hbc]
    refine lsum_congr fun a ha => ?_
    rw [MCtx.R, if_neg (fun he' => he ((h.isEnd a ha k).1 he'))]

theorem D (h : c.IsLin cs w cx) (hbc : c.m.et = .FF ∨ ∀ a ∈ cs, (cx a).useBc = c.useBc) (k : ℕ) :
    c.D k = lsum cs w fun a => (cx a).D k := by
  by_cases he : c.IsEnd k
  · rw [MCtx.D, if_pos he]
    have : ∀ a ∈ cs, (cx a).D k = (mambStn ((cx a).f 1) ((cx a).f 3) c.m.L (c.x k)).D +
        ((cx a).own.map fun l => (l.ssRD c.m.L c.n c.x k).2).sum := by
      intro a ha
      rw [MCtx.D, if_pos ((h.isEnd a ha k).2 he)]
      simp only [h.m a ha, h.x a ha, h.n a ha]
    rw [lsum_congr this]
    simp only [lsum_add]
    rw [← h.own (fun l => (l.ssRD c.m.L c.n c.x k).2) (fun g ld => by rw [ssRD_scale])]
    simp only [mambStn, lsum_add, lsum_sub, lsum_mul, lsum_div, lsum_mul_right, lsum_neg]
    rw [← h.f, ← h.f]
  · rw [MCtx.D, if_neg he, h.defl hbc]
    refine lsum_congr fun a ha => ?_
    rw [MCtx.D, if_neg (fun he' => he ((h.isEnd a ha k).1 he'))]

end MCtx.IsLin

end PyCBA
