import Verif.Similar.Image
import Verif.Load.ReleaseProps
import Verif.Section.Member

/-!
Member stiffness and end forces of a member seen from the other side (for C105).
-/

set_option linter.unusedSectionVars false
set_option linter.unusedSimpArgs false

namespace PyCBA

open Matrix Finset

variable {K : Type*} [Field K] [LinearOrder K] [IsStrictOrderedRing K]

/-! ### The description of the mirror image -/

/-- Seen from the other side rotations and couples change sign. -/
def flipSign (p : ℕ) : K := if p % 2 = 0 then 1 else -1

/-- A member matrix seen from the other side. -/
def matMirror (k : Mat4 K) : Mat4 K :=
  Matrix.of fun a b => flipSign a * flipSign b * k (a + 2) (b + 2)

/-- End values seen from the other side. -/
def vecMirror (v : Vec4 K) : Vec4 K := fun a => flipSign a * v (a + 2)

/-- The releases seen from the other side. -/
def EType.flip : EType → EType
  | .FF => .FF
  | .FP => .PF
  | .PF => .FP
  | .PP => .PP

/-- Sum of two polynomials given by their coefficients. -/
def polyAdd : List K → List K → List K
  | [], q => q
  | p, [] => p
  | a :: p, b :: q => (a + b) :: polyAdd p q

/-- The coefficients of `x ↦ p (L - x)`. -/
def polyFlip (L : K) : List K → List K
  | [] => []
  | k :: ks => polyAdd [k] (polyAdd ((polyFlip L ks).map (L * ·))
      (0 :: (polyFlip L ks).map (-1 * ·)))

/-- A load seen from the other side (`Load.mirror`, with imposed curvatures). -/
def Load.image (L : K) : Load K → Load K
  | .ic k EI => .ic (polyFlip L k) EI
  | ld => ld.mirror L

/-- A rigidity seen from the other side: the values at breakpoints do not matter. -/
inductive Rigidity.IsMirror (L : K) : Rigidity K → Rigidity K → Prop
  | const (v : K) : IsMirror L (.const v) (.const v)
  | sec (s s' : SecData K) (hn : s'.nodes.Perm (s.nodes.map fun n => ⟨L - n.x, n.w, n.EI⟩))
      (hb : s'.bps.Perm (s.bps.map (L - ·)))
      (he : ∀ x, 0 < x → x < L → x ∉ s.bps → s'.eval (L - x) = s.eval x) :
      IsMirror L (.section s) (.section s')

/-- A member seen from the other side. -/
structure Member.IsMirror (m m' : Member K) : Prop where
  L : m'.L = m.L
  et : m'.et = m.et.flip
  EI : m.EI.IsMirror m.L m'.EI
  GAv : Option.Rel (Rigidity.IsMirror m.L) m.GAv m'.GAv

/-! ### Stiffness -/

/-- A 2×2 matrix with both indices exchanged. -/
def mirror2 (m : Matrix (Fin 2) (Fin 2) K) : Matrix (Fin 2) (Fin 2) K :=
  !![m 1 1, m 1 0; m 0 1, m 0 0]

theorem inv2_mirror (m : Matrix (Fin 2) (Fin 2) K) :
    inv2 (mirror2 m) = (inv2 m).map mirror2 := by
  have : mirror2 m 0 0 * mirror2 m 1 1 - mirror2 m 0 1 * mirror2 m 1 0
      = m 0 0 * m 1 1 - m 0 1 * m 1 0 := by simp [mirror2]; ring
  unfold inv2
  simp only [this]
  split_ifs
  · rfl
  · simp only [Except.map]
    congr 1

theorem condenseFor_mirror (k : Mat4 K) (et : EType) :
    condenseFor (matMirror k) et.flip = (condenseFor k et).map matMirror := by
  cases et with
  | FF => rfl
  | FP =>
    simp only [EType.flip, condenseFor, condense1]
    have : matMirror k 1 1 = k 3 3 := by simp [matMirror, flipSign]
    rw [this]
    split_ifs
    · rfl
    · simp only [Except.map]
      congr 1
      ext a b
      fin_cases a <;> fin_cases b <;> simp [matMirror, flipSign] <;> try ring
  | PF =>
    simp only [EType.flip, condenseFor, condense1]
    have : matMirror k 3 3 = k 1 1 := by simp [matMirror, flipSign]
    rw [this]
    split_ifs
    · rfl
    · simp only [Except.map]
      congr 1
      ext a b
      fin_cases a <;> fin_cases b <;> simp [matMirror, flipSign] <;> try ring
  | PP =>
    simp only [EType.flip, condenseFor, condense2]
    have : (!![matMirror k 1 1, matMirror k 1 3; matMirror k 3 1, matMirror k 3 3] :
        Matrix (Fin 2) (Fin 2) K) = mirror2 !![k 1 1, k 1 3; k 3 1, k 3 3] := by
      simp [mirror2, matMirror, flipSign]
    rw [this, inv2_mirror]
    cases inv2 !![k 1 1, k 1 3; k 3 1, k 3 3] with
    | error e => rfl
    | ok i =>
      simp only [Except.map]
      congr 1
      ext a b
      fin_cases a <;> fin_cases b <;> simp [matMirror, flipSign, mirror2] <;> try ring

theorem TtKT_mirror (k : Matrix (Fin 2) (Fin 2) K) (L : K) :
    TtKT (mirror2 k) L = matMirror (TtKT k L) := by
  ext a b
  fin_cases a <;> fin_cases b <;>
    simp [TtKT, mirror2, matMirror, flipSign, Matrix.mul_apply, Fin.sum_univ_two] <;> try ring

theorem sum_map_perm {α : Type*} {l l' : List α} (g : α → α) (h : l'.Perm (l.map g)) (F G : α → K)
    (hFG : ∀ a, F (g a) = G a) : (l'.map F).sum = (l.map G).sum := by
  rw [(h.map F).sum_eq, List.map_map]
  congr 2
  funext a
  exact hFG a

theorem flexibility_mirror (ns ns' : List (GNode K)) (L : K) (hL : L ≠ 0)
    (h : ns'.Perm (ns.map fun n => ⟨L - n.x, n.w, n.EI⟩)) :
    flexibility ns' L = mirror2 (flexibility ns L) := by
  unfold flexibility mirror2
  simp only
  have e1 : ∀ x : K, 1 - (L - x) / L = x / L := by intro x; rw [sub_div, div_self hL]; ring
  have e2 : ∀ x : K, -(L - x) / L = -(1 - x / L) := by intro x; rw [neg_div, sub_div, div_self hL]
  rw [sum_map_perm _ h _ (fun n => n.w * (-n.x / L) * (-n.x / L) / n.EI) fun n => by
      rw [e1]; ring,
    sum_map_perm _ h _ (fun n => n.w * (1 - n.x / L) * (-n.x / L) / n.EI) fun n => by
      rw [e1, e2]; ring,
    sum_map_perm _ h _ (fun n => n.w * (1 - n.x / L) * (1 - n.x / L) / n.EI) fun n => by
      rw [e2]; ring]
  simp

theorem kNonprismatic_mirror (s s' : SecData K) (L : K) (hL : L ≠ 0) (et : EType)
    (h : s'.nodes.Perm (s.nodes.map fun n => ⟨L - n.x, n.w, n.EI⟩)) :
    kNonprismatic s' L et.flip = (kNonprismatic s L et).map matMirror := by
  unfold kNonprismatic
  rw [flexibility_mirror _ _ L hL h, inv2_mirror]
  cases inv2 (flexibility s.nodes L) with
  | error e => rfl
  | ok i =>
    simp only [Except.map, TtKT_mirror, condenseFor_mirror]

theorem timoFlexibility_mirror (EI EI' g g' : Rigidity K) (L : K) (hL : L ≠ 0)
    (hE : EI.IsMirror L EI') (hG : g.IsMirror L g') :
    timoFlexibility EI' g' L = mirror2 (timoFlexibility EI g L) := by
  have e1 : shearFlexibility g' L = shearFlexibility g L := by
    cases hG with
    | const v => rfl
    | sec s s' hn hb he =>
      simp only [shearFlexibility]
      rw [sum_map_perm _ hn _ (fun n => n.w / n.EI) fun n => rfl]
  unfold timoFlexibility
  rw [e1]
  cases hE with
  | const v =>
    ext i j
    fin_cases i <;> fin_cases j <;> simp [mirror2]
  | sec s s' hn hb he =>
    simp only [flexibility_mirror _ _ L hL hn]
    ext i j
    fin_cases i <;> fin_cases j <;> simp [mirror2]

theorem kTimoshenko_mirror (EI EI' g g' : Rigidity K) (L : K) (hL : L ≠ 0)
    (hE : EI.IsMirror L EI') (hG : g.IsMirror L g') (et : EType) :
    kTimoshenko EI' g' L et.flip = (kTimoshenko EI g L et).map matMirror := by
  unfold kTimoshenko
  rw [timoFlexibility_mirror _ _ _ _ L hL hE hG, inv2_mirror]
  cases inv2 (timoFlexibility EI g L) with
  | error e => rfl
  | ok i =>
    simp only [Except.map, TtKT_mirror, condenseFor_mirror]

theorem kFFtimo_mirror (e g L : K) : kFFtimo e g L = matMirror (kFFtimo e g L) := by
  ext a b
  fin_cases a <;> fin_cases b <;> simp [kFFtimo, matMirror, flipSign]

theorem Member.spanK_mirror (m m' : Member K) (hL : m.L ≠ 0) (h : m.IsMirror m') :
    m'.spanK = m.spanK.map matMirror := by
  obtain ⟨EI, L, et, GAv⟩ := m
  obtain ⟨EI', L', et', GAv'⟩ := m'
  obtain ⟨h1, h2, h3, h4⟩ := h
  simp only at h1 h2 h3 h4 hL
  subst h1 h2
  cases h4 with
  | none =>
    cases h3 with
    | const v =>
      simp only [Member.spanK]
      cases et <;> simp only [EType.flip, Except.map] <;> congr 1 <;> ext a b <;>
        fin_cases a <;> fin_cases b <;> simp [kFF, kFP, kPF, kPP, matMirror, flipSign]
    | sec s s' hn hb he => exact kNonprismatic_mirror s s' _ hL et hn
  | some hg =>
    cases hg with
    | const g =>
      cases h3 with
      | const v =>
        simp only [Member.spanK]
        conv_lhs => rw [kFFtimo_mirror, condenseFor_mirror]
      | sec s s' hn hb he =>
        exact kTimoshenko_mirror _ _ _ _ _ hL (.sec s s' hn hb he) (.const g) et
    | sec t t' hn' hb' he' =>
      cases h3 with
      | const v => exact kTimoshenko_mirror _ _ _ _ _ hL (.const v) (.sec t t' hn' hb' he') et
      | sec s s' hn hb he =>
        exact kTimoshenko_mirror _ _ _ _ _ hL (.sec s s' hn hb he) (.sec t t' hn' hb' he') et

/-! ### Diagrams of the loads -/

theorem polyInc_add (p q : List K) (x : K) : polyInc (polyAdd p q) x = polyInc p x + polyInc q x := by
  induction p generalizing q with
  | nil => simp [polyAdd, polyInc]
  | cons a p ih =>
    cases q with
    | nil => simp [polyAdd, polyInc]
    | cons b q => simp only [polyAdd, polyInc, ih]; ring

theorem polyInc_smul (g : K) (p : List K) (x : K) : polyInc (p.map (g * ·)) x = g * polyInc p x := by
  induction p with
  | nil => simp [polyInc]
  | cons a p ih => simp only [List.map_cons, polyInc, ih]; ring

theorem polyInc_flip (L : K) (p : List K) (x : K) : polyInc (polyFlip L p) x = polyInc p (L - x) := by
  induction p with
  | nil => rfl
  | cons k ks ih =>
    simp only [polyFlip, polyInc_add, polyInc_smul, ih, polyInc]
    ring

theorem kappaImp_image (ld : Load K) (L x : K) : (ld.image L).kappaImp (L - x) = ld.kappaImp x := by
  cases ld <;> simp [Load.image, Load.mirror, Load.kappaImp, polyInc_flip]

theorem mb_split (y : K) : (mb y = y ∧ mb (-y) = 0 ∧ 0 ≤ y) ∨ (mb y = 0 ∧ mb (-y) = -y ∧ y ≤ 0) := by
  unfold mb
  rcases le_total 0 y with h | h
  · left; exact ⟨max_eq_left h, max_eq_right (by linarith), h⟩
  · right; exact ⟨max_eq_right h, max_eq_left (by linarith), h⟩

/-- The bending moment of a load on a simple span, seen from the other side. -/
theorem Load.ssM_image (ld : Load K) (L x : K) (hL : 0 < L) (hs : (∀ k E, ld ≠ .ic k E) → ld.OnSpan L) :
    (ld.image L).ssM L (L - x) = ld.ssM L x := by
  have hL0 := hL.ne'
  cases ld with
  | udl w =>
    simp only [Load.image, Load.mirror, Load.ssM, Load.stn, udlStn]
    ring
  | pl P a =>
    obtain ⟨h1, h2⟩ := hs (by simp)
    simp only [Load.image, Load.mirror, Load.ssM, Load.stn, plStn, sub_sub_cancel, max_eq_left h1,
      max_eq_left (sub_nonneg.2 h2)]
    rw [show L - x - (L - a) = -(x - a) by ring]
    rcases mb_split (x - a) with ⟨e1, e2, -⟩ | ⟨e1, e2, -⟩ <;> rw [e1, e2] <;> field_simp <;> ring
  | pudl w a c =>
    simp only [Load.image, Load.mirror, Load.ssM, Load.stn, pudlStn]
    rw [show L - x - (L - a - c) = -(x - (c + a)) by ring,
      show L - x - (c + (L - a - c)) = -(x - a) by ring]
    rcases mb_split (x - a) with ⟨e1, e2, -⟩ | ⟨e1, e2, -⟩ <;>
    rcases mb_split (x - (c + a)) with ⟨e3, e4, -⟩ | ⟨e3, e4, -⟩ <;>
    rw [e1, e2, e3, e4] <;> field_simp <;> ring
  | trapez w1 w2 a c =>
    obtain ⟨h0, h2⟩ := hs (by simp)
    by_cases hv : L ≤ a ∨ c.getD (L - a) ≤ 0
    · have hv' : L ≤ L - a - c.getD (L - a) ∨ (some (c.getD (L - a))).getD
            (L - (L - a - c.getD (L - a))) ≤ 0 := by
        simp only [Option.getD_some]
        rcases hv with hv | hv
        · right
          cases c with
          | none => simpa using hv
          | some c' =>
            have := h2 c' rfl
            simp only [Option.getD_some]
            linarith
        · exact Or.inr hv
      simp [Load.image, Load.mirror, Load.ssM, Load.stn, resolve_zero hv, resolve_zero hv']
    · push Not at hv
      obtain ⟨h1, h3⟩ := hv
      have hb : a + c.getD (L - a) ≤ L := by
        cases c with
        | none => simp
        | some c' => simpa using h2 c' rfl
      set c0 := c.getD (L - a) with hc0
      have hr : resolveTrapez w1 w2 a c L = (w1, w2, w2 - w1, a, c0) := resolve_fit h1 h3 hb
      have hr' : resolveTrapez w2 w1 (L - a - c0) (some c0) L
          = (w2, w1, w1 - w2, L - a - c0, c0) :=
        resolve_fit (by linarith) (by simpa using h3) (by simp; linarith)
      simp only [Load.image, Load.mirror, ← hc0, Load.ssM, Load.stn, hr, hr', not_le.mpr h3,
        if_false, trapezStn]
      have hc00 : c0 ≠ 0 := h3.ne'
      rw [show L - x - (L - a - c0) = -(x - (a + c0)) by ring,
        show L - x - (L - a - c0 + c0) = -(x - a) by ring]
      rcases mb_split (x - a) with ⟨e1, e2, -⟩ | ⟨e1, e2, -⟩ <;>
      rcases mb_split (x - (a + c0)) with ⟨e3, e4, -⟩ | ⟨e3, e4, -⟩ <;>
      rw [e1, e2, e3, e4] <;> field_simp <;> ring
  | mamb Ma Mb =>
    simp only [Load.image, Load.mirror, Load.ssM, Load.stn, mambStn]
    field_simp
    ring
  | ml m a =>
    simp only [Load.image, Load.mirror, Load.ssM, Load.stn, mlStn]
    have hh : ∀ y v : K, hv (-y) v = 1 - hv y (1 - v) := by
      intro y v
      unfold hv
      rcases lt_trichotomy y 0 with h | h | h
      · rw [if_neg (by linarith), if_neg (by linarith), if_pos h]; ring
      · subst h; simp
      · rw [if_pos (by linarith), if_neg (by linarith), if_neg (by linarith)]; ring
    rw [show L - x - (L - a) = -(x - a) by ring]
    simp only [hh]
    by_cases h1 : a = 0
    · subst h1
      rw [if_neg (by simpa using hL0), if_pos (by ring), if_pos rfl]
      simp only [sub_zero]
      field_simp
      ring
    · by_cases h2 : a = L
      · subst h2
        rw [if_pos (by ring), if_neg h1, if_pos rfl]
        simp only [sub_self]
        field_simp
        ring
      · rw [if_neg (fun h => h2 (by linarith)), if_neg (fun h => h1 (by linarith)), if_neg h1,
          if_neg h2]
        have : (1 : K) - 1 / 2 = 1 / 2 := by norm_num
        rw [this]
        field_simp
        ring
  | ic k E => simp [Load.image, Load.ssM, Load.stn]

/-- The shear of a load on a simple span, seen from the other side, except at a point
force. -/
theorem Load.ssV_image (ld : Load K) (L x : K) (hL : 0 < L) (hs : (∀ k E, ld ≠ .ic k E) → ld.OnSpan L)
    (hx : ∀ P, ld ≠ .pl P x) : (ld.image L).ssV L (L - x) = -ld.ssV L x := by
  have hL0 := hL.ne'
  cases ld with
  | udl w =>
    simp only [Load.image, Load.mirror, Load.ssV, Load.stn, udlStn]
    ring
  | pl P a =>
    obtain ⟨h1, h2⟩ := hs (by simp)
    simp only [Load.image, Load.mirror, Load.ssV, Load.stn, plStn, sub_sub_cancel, max_eq_left h1,
      max_eq_left (sub_nonneg.2 h2)]
    have hne : x ≠ a := fun h => hx P (by rw [h])
    rw [show L - x - (L - a) = -(x - a) by ring]
    have : hv (-(x - a)) 0 = 1 - hv (x - a) 0 := by
      unfold hv
      rcases lt_or_gt_of_ne hne with h | h
      · rw [if_neg (by linarith), if_neg (by intro h'; apply hne; linarith), if_pos (by linarith)]; ring
      · rw [if_pos (by linarith), if_neg (by linarith), if_neg (by intro h'; apply hne; linarith)]
        ring
    rw [this]
    field_simp
    ring
  | pudl w a c =>
    simp only [Load.image, Load.mirror, Load.ssV, Load.stn, pudlStn]
    rw [show L - x - (L - a - c) = -(x - (c + a)) by ring,
      show L - x - (c + (L - a - c)) = -(x - a) by ring]
    rcases mb_split (x - a) with ⟨e1, e2, -⟩ | ⟨e1, e2, -⟩ <;>
    rcases mb_split (x - (c + a)) with ⟨e3, e4, -⟩ | ⟨e3, e4, -⟩ <;>
    rw [e1, e2, e3, e4] <;> field_simp <;> ring
  | trapez w1 w2 a c =>
    obtain ⟨h0, h2⟩ := hs (by simp)
    by_cases hv : L ≤ a ∨ c.getD (L - a) ≤ 0
    · have hv' : L ≤ L - a - c.getD (L - a) ∨ (some (c.getD (L - a))).getD
            (L - (L - a - c.getD (L - a))) ≤ 0 := by
        simp only [Option.getD_some]
        rcases hv with hv | hv
        · right
          cases c with
          | none => simpa using hv
          | some c' =>
            have := h2 c' rfl
            simp only [Option.getD_some]
            linarith
        · exact Or.inr hv
      simp [Load.image, Load.mirror, Load.ssV, Load.stn, resolve_zero hv, resolve_zero hv']
    · push Not at hv
      obtain ⟨h1, h3⟩ := hv
      have hb : a + c.getD (L - a) ≤ L := by
        cases c with
        | none => simp
        | some c' => simpa using h2 c' rfl
      set c0 := c.getD (L - a) with hc0
      have hr : resolveTrapez w1 w2 a c L = (w1, w2, w2 - w1, a, c0) := resolve_fit h1 h3 hb
      have hr' : resolveTrapez w2 w1 (L - a - c0) (some c0) L
          = (w2, w1, w1 - w2, L - a - c0, c0) :=
        resolve_fit (by linarith) (by simpa using h3) (by simp; linarith)
      simp only [Load.image, Load.mirror, ← hc0, Load.ssV, Load.stn, hr, hr', not_le.mpr h3,
        if_false, trapezStn]
      have hc00 : c0 ≠ 0 := h3.ne'
      rw [show L - x - (L - a - c0) = -(x - (a + c0)) by ring,
        show L - x - (L - a - c0 + c0) = -(x - a) by ring]
      rcases mb_split (x - a) with ⟨e1, e2, -⟩ | ⟨e1, e2, -⟩ <;>
      rcases mb_split (x - (a + c0)) with ⟨e3, e4, -⟩ | ⟨e3, e4, -⟩ <;>
      rw [e1, e2, e3, e4] <;> field_simp <;> ring
  | mamb Ma Mb =>
    simp only [Load.image, Load.mirror, Load.ssV, Load.stn, mambStn]
    ring
  | ml m a =>
    simp only [Load.image, Load.mirror, Load.ssV, Load.stn, mlStn]
    ring
  | ic k E => simp [Load.image, Load.ssV, Load.stn]

end PyCBA
