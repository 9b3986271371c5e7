import Verif.Similar.Image
import Verif.Stiffness.Props
import Verif.Results.Props

/-!
Member stiffness and end forces in other units (for C104).  The unit of length is divided by `l` (so lengths
are multiplied by `l`) and the unit of force by `f`.
-/

set_option linter.unusedSectionVars false
set_option linter.unusedSimpArgs false

namespace PyCBA

open Matrix Finset

variable {K : Type*} [Field K] [LinearOrder K] [IsStrictOrderedRing K]

/-! ### The same beam in other units -/

/-- Coefficients (in increasing powers of the coordinate) of a polynomial whose value is
multiplied by `g` when the coordinate is multiplied by `l`. -/
def coeffUnits (l : K) : K → List K → List K
  | _, [] => []
  | g, k :: ks => g * k :: coeffUnits l (g / l) ks

/-- A load: intensities `f / l`, forces `f`, couples `f l`, curvatures `1 / l`. -/
def Load.units (l f : K) : Load K → Load K
  | .udl w => .udl (f / l * w)
  | .pl P a => .pl (f * P) (l * a)
  | .pudl w a c => .pudl (f / l * w) (l * a) (l * c)
  | .trapez w1 w2 a c => .trapez (f / l * w1) (f / l * w2) (l * a) (c.map (l * ·))
  | .mamb Ma Mb => .mamb (f * l * Ma) (f * l * Mb)
  | .ml m a => .ml (f * l * m) (l * a)
  | .ic k EI => .ic (coeffUnits l (1 / l) k) (EI.map (f * l ^ 2 * ·))

/-- A row of the load matrix. -/
def Row.units (l f : K) (r : Row K) : Row K :=
  ⟨r.span, r.ltype,
    if r.ltype = 1 then r.args.map (f / l * ·)
    else if r.ltype = 2 then r.args.take 1 |>.map (f * ·) |>.append (r.args.drop 1 |>.map (l * ·))
    else if r.ltype = 3 then
      r.args.take 1 |>.map (f / l * ·) |>.append (r.args.drop 1 |>.map (l * ·))
    else if r.ltype = 4 then
      r.args.take 1 |>.map (f * l * ·) |>.append (r.args.drop 1 |>.map (l * ·))
    else if r.ltype = 5 then
      r.args.take 2 |>.map (f / l * ·) |>.append (r.args.drop 2 |>.map (l * ·))
    else if r.ltype = 6 then coeffUnits l (1 / l) r.args
    else r.args⟩

/-- A rigidity multiplied by `g`. -/
def Rigidity.units (l g : K) : Rigidity K → Rigidity K
  | .const v => .const (g * v)
  | .section s => .section
      ⟨s.nodes.map fun n => ⟨l * n.x, l * n.w, g * n.EI⟩, fun x => g * s.eval (x / l),
        s.bps.map (l * ·)⟩

/-- A member: `EI` in force times length squared, `GAv` in force. -/
def Member.units (l f : K) (m : Member K) : Member K :=
  ⟨m.EI.units l (f * l ^ 2), l * m.L, m.et, m.GAv.map (Rigidity.units l f)⟩

/-- Unit of the displacement at a degree of freedom: a length or an angle. -/
def dispUnit (l : K) (p : ℕ) : K := if p % 2 = 0 then l else 1

/-- Unit of the force at a degree of freedom: a force or a couple. -/
def forceUnit (l f : K) (p : ℕ) : K := if p % 2 = 0 then f else f * l

/-- The beam in the other units: springs in force per displacement. -/
def BeamDef.units (l f : K) (b : BeamDef K) : BeamDef K :=
  ⟨b.members.map (Member.units l f),
    b.restraints.zipIdx.map (fun ri => forceUnit l f ri.2 / dispUnit l ri.2 * ri.1),
    b.presc.zipIdx.map (fun vi => vi.1.map (dispUnit l vi.2 * ·)),
    b.LM.map (Row.units l f)⟩

/-- End forces in the other units. -/
def CNL.units (l f : K) (c : CNL K) : CNL K := ⟨f * c.Va, f * l * c.Ma, f * c.Vb, f * l * c.Mb⟩

/-- A vector of end forces in the other units. -/
def vecUnits (l f : K) (v : Vec4 K) : Vec4 K := fun a => forceUnit l f a * v a

/-- A vector of end displacements in the other units. -/
def dispVecUnits (l : K) (v : Vec4 K) : Vec4 K := fun a => dispUnit l a * v a

/-- A member stiffness in the other units. -/
def matUnits (l f : K) (k : Mat4 K) : Mat4 K :=
  Matrix.of fun a b => forceUnit l f a / dispUnit l b * k a b

/-! ### Stiffness -/

section stiffness

variable {l f : K} (hl : 0 < l) (hf : 0 < f)

include hl hf

theorem kFF_units (EI L : K) (hL : L ≠ 0) :
    kFF (f * l ^ 2 * EI) (l * L) = matUnits l f (kFF EI L) := by
  have h1 := hl.ne'
  have h2 := hf.ne'
  ext a b
  fin_cases a <;> fin_cases b <;> simp [kFF, matUnits, forceUnit, dispUnit] <;> field_simp

theorem kFP_units (EI L : K) (hL : L ≠ 0) :
    kFP (f * l ^ 2 * EI) (l * L) = matUnits l f (kFP EI L) := by
  have h1 := hl.ne'
  have h2 := hf.ne'
  ext a b
  fin_cases a <;> fin_cases b <;> simp [kFP, matUnits, forceUnit, dispUnit] <;> field_simp

theorem kPF_units (EI L : K) (hL : L ≠ 0) :
    kPF (f * l ^ 2 * EI) (l * L) = matUnits l f (kPF EI L) := by
  have h1 := hl.ne'
  have h2 := hf.ne'
  ext a b
  fin_cases a <;> fin_cases b <;> simp [kPF, matUnits, forceUnit, dispUnit] <;> field_simp

theorem kPP_units : (kPP : Mat4 K) = matUnits l f kPP := by
  ext a b
  simp [kPP, matUnits]

theorem kFFtimo_units (EI G L : K) (hL : L ≠ 0) (hG : G ≠ 0) :
    kFFtimo (f * l ^ 2 * EI) (f * G) (l * L) = matUnits l f (kFFtimo EI G L) := by
  have h1 := hl.ne'
  have h2 := hf.ne'
  have hphi : 12 * (f * l ^ 2 * EI) / (f * G * (l * L) ^ 2) = 12 * EI / (G * L ^ 2) := by
    field_simp
  ext a b
  unfold kFFtimo
  simp only [hphi]
  generalize 12 * EI / (G * L ^ 2) = phi
  have hc : f * l ^ 2 * EI / (1 + phi) = f * l ^ 2 * (EI / (1 + phi)) := by ring
  rw [hc]
  generalize EI / (1 + phi) = c
  fin_cases a <;> fin_cases b <;> simp [matUnits, forceUnit, dispUnit] <;> field_simp

theorem condense1_units (k : Mat4 K) (r : Fin 4) :
    condense1 (matUnits l f k) r = (condense1 k r).map (matUnits l f) := by
  have h1 := hl.ne'
  have h2 := hf.ne'
  have hu : ∀ a b : Fin 4, forceUnit l f a / dispUnit l b ≠ 0 := by
    intro a b
    fin_cases a <;> fin_cases b <;> simp [forceUnit, dispUnit, h1, h2]
  unfold condense1
  have hz : matUnits l f k r r = 0 ↔ k r r = 0 := by
    simp only [matUnits, of_apply, mul_eq_zero, hu r r, false_or]
  by_cases hk : k r r = 0
  · rw [if_pos (hz.2 hk), if_pos hk]; rfl
  · rw [if_neg fun h => hk (hz.1 h), if_neg hk]
    simp only [Except.map]
    congr 1
    ext p q
    simp only [of_apply, matUnits]
    split_ifs
    · simp
    · have hA : ∀ a : Fin 4, forceUnit l f a ≠ 0 := by
        intro a; fin_cases a <;> simp [forceUnit, h1, h2]
      have hB : ∀ a : Fin 4, dispUnit l a ≠ 0 := by
        intro a; fin_cases a <;> simp [dispUnit, h1]
      have a1 := hA p
      have a2 := hA r
      have b1 := hB q
      have b2 := hB r
      field_simp

theorem inv2_smul (m m' : Matrix (Fin 2) (Fin 2) K) (c : K) (hc : c ≠ 0)
    (h : ∀ i j, m' i j = c * m i j) :
    inv2 m' = (inv2 m).map fun i => Matrix.of fun p q => i p q / c := by
  unfold inv2
  simp only [h]
  have hd : c * m 0 0 * (c * m 1 1) - c * m 0 1 * (c * m 1 0)
      = c ^ 2 * (m 0 0 * m 1 1 - m 0 1 * m 1 0) := by ring
  rw [hd]
  generalize m 0 0 * m 1 1 - m 0 1 * m 1 0 = D
  by_cases h0 : D = 0
  · simp [h0, Except.map]
  · have : ¬ c ^ 2 * D = 0 := mul_ne_zero (pow_ne_zero _ hc) h0
    rw [if_neg this, if_neg h0]
    simp only [Except.map]
    congr 1
    ext p q
    fin_cases p <;> fin_cases q <;> simp <;> field_simp

theorem condense2_units (k : Mat4 K) :
    condense2 (matUnits l f k) = (condense2 k).map (matUnits l f) := by
  have h1 := hl.ne'
  have h2 := hf.ne'
  unfold condense2
  rw [inv2_smul hl hf !![k 1 1, k 1 3; k 3 1, k 3 3] _ (f * l) (mul_ne_zero h2 h1) (by
    intro i j
    fin_cases i <;> fin_cases j <;> simp [matUnits, forceUnit, dispUnit])]
  cases inv2 !![k 1 1, k 1 3; k 3 1, k 3 3] with
  | error e => rfl
  | ok i =>
    simp only [Except.map]
    congr 1
    ext p q
    simp only [of_apply, matUnits]
    split_ifs
    · simp
    · have hp : (p : ℕ) % 2 = 0 := by
        fin_cases p <;> simp_all
      have hq : (q : ℕ) % 2 = 0 := by
        fin_cases q <;> simp_all
      simp [forceUnit, dispUnit, hp, hq]
      field_simp

theorem condenseFor_units (k : Mat4 K) (et : EType) :
    condenseFor (matUnits l f k) et = (condenseFor k et).map (matUnits l f) := by
  cases et
  · rfl
  · exact condense1_units hl hf k 3
  · exact condense1_units hl hf k 1
  · exact condense2_units hl hf k

theorem TtKT_units (Kth : Matrix (Fin 2) (Fin 2) K) (L : K) (hL : L ≠ 0) :
    TtKT (Matrix.of fun p q => Kth p q / (1 / (f * l))) (l * L) = matUnits l f (TtKT Kth L) := by
  have h1 := hl.ne'
  have h2 := hf.ne'
  ext a b
  fin_cases a <;> fin_cases b <;>
    simp [TtKT, matUnits, forceUnit, dispUnit, Matrix.mul_apply, Fin.sum_univ_two] <;>
    field_simp

theorem flexibility_units (ns : List (GNode K)) (L : K) (i j : Fin 2) :
    flexibility (ns.map fun n => (⟨l * n.x, l * n.w, f * l ^ 2 * n.EI⟩ : GNode K)) (l * L) i j
      = 1 / (f * l) * flexibility ns L i j := by
  have h1 := hl.ne'
  have h2 := hf.ne'
  have e : ∀ x : K, l * x / (l * L) = x / L := fun x => mul_div_mul_left x L h1
  have e' : ∀ x : K, -(l * x) / (l * L) = -x / L := fun x => by
    rw [← mul_neg, mul_div_mul_left _ L h1]
  have key : ∀ g : K → K, ((ns.map fun n => (⟨l * n.x, l * n.w, f * l ^ 2 * n.EI⟩ : GNode K)).map
      fun n => n.w * g (n.x / l) / n.EI).sum
      = 1 / (f * l) * (ns.map fun n => n.w * g n.x / n.EI).sum := by
    intro g
    induction ns with
    | nil => simp
    | cons n ns ih =>
      simp only [List.map_cons, List.sum_cons, ih, mul_add]
      congr 1
      rw [mul_div_cancel_left₀ _ h1]
      by_cases hE : n.EI = 0
      · simp [hE]
      · field_simp
  have hx : ∀ n : GNode K, l * n.x / l = n.x := fun n => mul_div_cancel_left₀ _ h1
  have k1 := key fun x => (1 - x / L) * (1 - x / L)
  have k2 := key fun x => (1 - x / L) * (-x / L)
  have k3 := key fun x => (-x / L) * (-x / L)
  simp only [List.map_map, Function.comp_def, hx] at k1 k2 k3
  fin_cases i <;> fin_cases j <;>
    simp only [flexibility, List.map_map, Function.comp_def, e, e', mul_assoc, of_apply, cons_val',
      cons_val_zero, cons_val_one, Fin.zero_eta, Fin.mk_one, Fin.isValue, cons_val_fin_one] <;>
    simp only [mul_assoc] at k1 k2 k3 <;> first | exact k1 | exact k2 | exact k3

theorem shearFlexibility_units (g : Rigidity K) (L : K) (hL : L ≠ 0) :
    shearFlexibility (g.units l f) (l * L) = 1 / (f * l) * shearFlexibility g L := by
  have h1 := hl.ne'
  have h2 := hf.ne'
  cases g with
  | const v =>
    simp only [shearFlexibility, Rigidity.units]
    by_cases hv : v = 0
    · simp [hv]
    · field_simp
  | «section» s =>
    simp only [shearFlexibility, Rigidity.units, List.map_map, Function.comp_def]
    have : (s.nodes.map fun n => l * n.w / (f * n.EI)).sum
        = l / f * (s.nodes.map fun n => n.w / n.EI).sum := by
      induction s.nodes with
      | nil => simp
      | cons n ns ih =>
        simp only [List.map_cons, List.sum_cons, ih, mul_add]
        congr 1
        by_cases hE : n.EI = 0
        · simp [hE]
        · field_simp
    rw [this]
    field_simp

theorem timoFlexibility_units (EI g : Rigidity K) (L : K) (hL : L ≠ 0) (i j : Fin 2) :
    timoFlexibility (EI.units l (f * l ^ 2)) (g.units l f) (l * L) i j
      = 1 / (f * l) * timoFlexibility EI g L i j := by
  have h1 := hl.ne'
  have h2 := hf.ne'
  unfold timoFlexibility
  simp only [of_apply, shearFlexibility_units hl hf g L hL, mul_add]
  congr 1
  cases EI with
  | const e =>
    simp only [Rigidity.units]
    by_cases he : e = 0
    · fin_cases i <;> fin_cases j <;> simp [he]
    · fin_cases i <;> fin_cases j <;> simp <;> field_simp
  | «section» s =>
    simp only [Rigidity.units]
    exact flexibility_units hl hf s.nodes L i j

theorem kTimoshenko_units (EI g : Rigidity K) (L : K) (hL : L ≠ 0) (et : EType) :
    kTimoshenko (EI.units l (f * l ^ 2)) (g.units l f) (l * L) et
      = (kTimoshenko EI g L et).map (matUnits l f) := by
  have h0 : (1 / (f * l) : K) ≠ 0 := by
    have := hl.ne'
    have := hf.ne'
    positivity
  unfold kTimoshenko
  rw [inv2_smul hl hf (timoFlexibility EI g L) _ (1 / (f * l)) h0
    (timoFlexibility_units hl hf EI g L hL)]
  cases inv2 (timoFlexibility EI g L) with
  | error e => rfl
  | ok Kth =>
    simp only [Except.map]
    rw [TtKT_units hl hf Kth L hL, condenseFor_units hl hf]
    rfl

theorem kNonprismatic_units (s : SecData K) (L : K) (hL : L ≠ 0) (et : EType) (ev : K → K)
    (bp : List K) :
    kNonprismatic ⟨s.nodes.map fun n => ⟨l * n.x, l * n.w, f * l ^ 2 * n.EI⟩, ev, bp⟩ (l * L) et
      = (kNonprismatic s L et).map (matUnits l f) := by
  have h0 : (1 / (f * l) : K) ≠ 0 := by
    have := hl.ne'
    have := hf.ne'
    positivity
  unfold kNonprismatic
  rw [inv2_smul hl hf (flexibility s.nodes L) _ (1 / (f * l)) h0
    (flexibility_units hl hf s.nodes L)]
  cases inv2 (flexibility s.nodes L) with
  | error e => rfl
  | ok Kth =>
    simp only [Except.map]
    rw [TtKT_units hl hf Kth L hL, condenseFor_units hl hf]
    rfl

/-- The stiffness of a member in other units. -/
theorem Member.spanK_units (m : Member K) (hL : m.L ≠ 0)
    (hG : ∀ g, m.GAv = some (.const g) → g ≠ 0) :
    (m.units l f).spanK = m.spanK.map (matUnits l f) := by
  obtain ⟨EI, L, et, GAv⟩ := m
  simp only at hL hG
  cases GAv with
  | none =>
    cases EI with
    | const e =>
      cases et
      · simp [Member.units, Member.spanK, Rigidity.units, Except.map, kFF_units hl hf e L hL]
      · simp [Member.units, Member.spanK, Rigidity.units, Except.map, kFP_units hl hf e L hL]
      · simp [Member.units, Member.spanK, Rigidity.units, Except.map, kPF_units hl hf e L hL]
      · simp [Member.units, Member.spanK, Rigidity.units, Except.map, ← kPP_units hl hf]
    | «section» s =>
      simp only [Member.units, Member.spanK, Rigidity.units, Option.map_none]
      exact kNonprismatic_units hl hf s L hL et _ _
  | some g =>
    cases g with
    | const g =>
      cases EI with
      | const e =>
        simp only [Member.units, Member.spanK, Rigidity.units, Option.map_some]
        rw [kFFtimo_units hl hf e g L hL (hG g rfl), condenseFor_units hl hf]
      | «section» s =>
        simp only [Member.units, Member.spanK, Rigidity.units, Option.map_some]
        exact kTimoshenko_units hl hf (.section s) (.const g) L hL et
    | «section» sg =>
      have := kTimoshenko_units hl hf EI (.section sg) L hL et
      cases EI <;>
        · simp only [Member.units, Member.spanK, Rigidity.units, Option.map_some] at this ⊢
          exact this

end stiffness


/-! ### Loads -/

section loads

variable {l f : K} (hl : 0 < l) (hf : 0 < f)

include hl hf

theorem polyInc_units (g : K) (ks : List K) (x : K) :
    polyInc (coeffUnits l g ks) (l * x) = g * polyInc ks x := by
  have h1 := hl.ne'
  induction ks generalizing g with
  | nil => simp [polyInc, coeffUnits]
  | cons k ks ih =>
    simp only [polyInc, coeffUnits, ih]
    field_simp

theorem simpson_units (m : ℕ) (φ ψ : K → K) (c a b : K) (h : ∀ x, ψ (l * x) = c * φ x) :
    simpson m ψ (l * a) (l * b) = c * l * simpson m φ a b := by
  unfold simpson
  simp only
  rw [← List.sum_map_mul_left]
  congr 1
  apply List.map_congr_left
  intro i _
  have e : ∀ j : K, l * a + j * ((l * b - l * a) / (2 * m)) = l * (a + j * ((b - a) / (2 * m))) := by
    intro j; ring
  simp only [e, h]
  ring

theorem mb_units (x a : K) : mb (l * x - l * a) = l * mb (x - a) := by
  unfold mb
  rw [← mul_sub, mul_max_of_nonneg _ _ hl.le, mul_zero]

theorem hv_units (x a v : K) : hv (l * x - l * a) v = hv (x - a) v := by
  unfold hv
  rw [← mul_sub]
  have h1 : l * (x - a) < 0 ↔ x - a < 0 := by
    constructor
    · intro h; by_contra h2; push Not at h2; exact absurd h (not_lt.2 (by positivity))
    · intro h; exact mul_neg_of_pos_of_neg hl h
  have h2 : l * (x - a) = 0 ↔ x - a = 0 := by simp [hl.ne']
  simp only [h1, h2]

theorem max_units (x y : K) : max (l * x - l * y) 0 = l * max (x - y) 0 := mb_units hl hf x y

omit hl hf in
theorem resolveTrapez_getD (w1 w2 a : K) (c : Option K) (L : K) :
    resolveTrapez w1 w2 a c L = (if L ≤ a ∨ c.getD (L - a) ≤ 0 then (w1, w2, 0, a, 0)
      else if L < a + c.getD (L - a) then
        (w1, w1 + (w2 - w1) * (L - a) / c.getD (L - a),
          w1 + (w2 - w1) * (L - a) / c.getD (L - a) - w1, a, L - a)
      else (w1, w2, w2 - w1, a, c.getD (L - a))) := by
  cases c <;> rfl

theorem resolveTrapez_units (w1 w2 a : K) (c : Option K) (L : K) :
    resolveTrapez (f / l * w1) (f / l * w2) (l * a) (c.map (l * ·)) (l * L)
      = (f / l * (resolveTrapez w1 w2 a c L).1, f / l * (resolveTrapez w1 w2 a c L).2.1,
        f / l * (resolveTrapez w1 w2 a c L).2.2.1, l * (resolveTrapez w1 w2 a c L).2.2.2.1,
        l * (resolveTrapez w1 w2 a c L).2.2.2.2) := by
  have h1 := hl.ne'
  simp only [resolveTrapez_getD]
  have hc : (c.map (l * ·)).getD (l * L - l * a) = l * c.getD (L - a) := by
    cases c <;> simp [mul_sub]
  simp only [hc]
  generalize c.getD (L - a) = c0
  have e1 : l * L ≤ l * a ↔ L ≤ a := mul_le_mul_iff_of_pos_left hl
  have e2 : l * c0 ≤ 0 ↔ c0 ≤ 0 := by
    rw [← mul_zero l, mul_le_mul_iff_of_pos_left hl, mul_zero]
  have e3 : l * L < l * a + l * c0 ↔ L < a + c0 := by
    rw [← mul_add, mul_lt_mul_iff_of_pos_left hl]
  simp only [e1, e2, e3]
  split_ifs with h2 h3
  · simp
  · push Not at h2
    have : c0 ≠ 0 := h2.2.ne'
    simp only [Prod.mk.injEq, true_and, and_true]
    refine ⟨?_, ?_, ?_⟩
    · field_simp
    · field_simp
    · ring
  · simp only [Prod.mk.injEq, true_and, and_true]
    ring

theorem Load.getCnl_units (ld : Load K) (L : K) (hL : L ≠ 0) :
    (ld.units l f).getCnl (l * L) = (ld.getCnl L).map fun r => match r with
      | .cnl c => .cnl (c.units l f)
      | .plainList z => .plainList z := by
  have h1 := hl.ne'
  have h2 := hf.ne'
  cases ld with
  | udl w =>
    simp only [Load.units, Load.getCnl, Except.map]
    congr 2
    ext <;> simp only [udlCnl, CNL.units] <;> field_simp
  | pl P a =>
    simp only [Load.units, Load.getCnl, Except.map]
    congr 2
    ext <;> simp only [plCnl, CNL.units, max_units hl hf] <;> field_simp
  | pudl w a c =>
    simp only [Load.units, Load.getCnl]
    have e1 : l * L < l * a ↔ L < a := mul_lt_mul_iff_of_pos_left hl
    have e2 : l * L - (l * a + l * c) = l * (L - (a + c)) := by ring
    have e3 : l * (L - (a + c)) < 0 ↔ L - (a + c) < 0 := by
      rw [← mul_zero l, mul_lt_mul_iff_of_pos_left hl, mul_zero]
    simp only [e1, e2, e3]
    split_ifs with h3 h4
    · rfl
    · simp only [Except.map]
      congr 2
      rw [← mul_add]
      generalize c + (L - (a + c)) = c'
      ext <;> simp only [pudlCnl, CNL.units] <;> field_simp
    · simp only [Except.map]
      congr 2
      ext <;> simp only [pudlCnl, CNL.units] <;> field_simp
  | trapez w1 w2 a c =>
    simp only [Load.units, Load.getCnl, resolveTrapez_units hl hf]
    generalize resolveTrapez w1 w2 a c L = r
    obtain ⟨w1, w2, dw, a, c⟩ := r
    have e2 : l * c ≤ 0 ↔ c ≤ 0 := by
      rw [← mul_zero l, mul_le_mul_iff_of_pos_left hl, mul_zero]
    simp only [e2]
    split_ifs with hc
    · simp [Except.map, CNL.units]
    · push Not at hc
      have := hc.ne'
      simp only [Except.map]
      congr 2
      ext <;> simp only [trapezCnl, CNL.units] <;> field_simp
  | mamb Ma Mb =>
    simp only [Load.units, Load.getCnl, Except.map]
    congr 2
    ext <;> simp only [mambCnl, CNL.units] <;> field_simp
  | ml m a =>
    simp only [Load.units, Load.getCnl, Except.map]
    congr 2
    ext <;> simp only [mlCnl, CNL.units] <;> field_simp
  | ic k EI =>
    cases EI with
    | none => rfl
    | some EI =>
      simp only [Load.units, Load.getCnl, Except.map, Option.map_some]
      congr 2
      have e0 : simpson 1000 (fun x => (1 - x / (l * L)) * polyInc (coeffUnits l (1 / l) k) x) 0 (l * L)
          = simpson 1000 (fun x => (1 - x / L) * polyInc k x) 0 L := by
        have := simpson_units hl hf 1000 (fun x => (1 - x / L) * polyInc k x)
          (fun x => (1 - x / (l * L)) * polyInc (coeffUnits l (1 / l) k) x) (1 / l) 0 L (by
            intro x
            simp only [polyInc_units hl hf, mul_div_mul_left x L h1]
            ring)
        rw [mul_zero] at this
        rw [this]
        field_simp
      have e1 : simpson 1000 (fun x => -x / (l * L) * polyInc (coeffUnits l (1 / l) k) x) 0 (l * L)
          = simpson 1000 (fun x => -x / L * polyInc k x) 0 L := by
        have := simpson_units hl hf 1000 (fun x => -x / L * polyInc k x)
          (fun x => -x / (l * L) * polyInc (coeffUnits l (1 / l) k) x) (1 / l) 0 L (by
            intro x
            simp only [polyInc_units hl hf]
            rw [← mul_neg, mul_div_mul_left _ L h1]
            ring)
        rw [mul_zero] at this
        rw [this]
        field_simp
      simp only [icCnl, icEndMoments, e0, e1]
      ext <;> simp only [CNL.units] <;> field_simp

theorem Load.stn_units (ld : Load K) (L x : K) (hL : L ≠ 0) :
    (ld.units l f).stn (l * L) (l * x) = (ld.stn L x).map fun s =>
      ⟨f * s.V, f * l * s.M, f * l ^ 2 * s.R, f * l ^ 3 * s.D⟩ := by
  have h1 := hl.ne'
  have h2 := hf.ne'
  cases ld with
  | udl w =>
    simp only [Load.units, Load.stn, Option.map_some, Option.some.injEq]
    ext <;> simp only [udlStn] <;> field_simp
  | pl P a =>
    simp only [Load.units, Load.stn, Option.map_some, Option.some.injEq]
    ext <;> simp only [plStn, max_units hl hf, mb_units hl hf, hv_units hl hf] <;> field_simp
  | pudl w a c =>
    simp only [Load.units, Load.stn, Option.map_some, Option.some.injEq]
    have e : ∀ y : K, l * y - (l * c + l * a) = l * y - l * (c + a) := fun y => by ring
    ext <;> simp only [pudlStn, e, mb_units hl hf] <;> field_simp
  | trapez w1 w2 a c =>
    simp only [Load.units, Load.stn, resolveTrapez_units hl hf]
    generalize resolveTrapez w1 w2 a c L = r
    obtain ⟨w1, w2, dw, a, c⟩ := r
    have e2 : l * c ≤ 0 ↔ c ≤ 0 := by
      rw [← mul_zero l, mul_le_mul_iff_of_pos_left hl, mul_zero]
    simp only [e2]
    split_ifs with hc
    · simp
    · push Not at hc
      have := hc.ne'
      simp only [Option.map_some, Option.some.injEq]
      have e : ∀ y : K, l * y - (l * a + l * c) = l * y - l * (a + c) := fun y => by ring
      ext <;> simp only [trapezStn, e, mb_units hl hf] <;> field_simp
  | mamb Ma Mb =>
    simp only [Load.units, Load.stn, Option.map_some, Option.some.injEq]
    ext <;> simp only [mambStn] <;> field_simp
  | ml m a =>
    simp only [Load.units, Load.stn, Option.map_some, Option.some.injEq]
    have e1 : l * a = 0 ↔ a = 0 := by simp [h1]
    have e2 : l * a = l * L ↔ a = L := mul_right_inj' h1
    ext
    · simp only [mlStn]; field_simp
    · simp only [mlStn, e1, e2, hv_units hl hf]
      split_ifs <;> field_simp
    · simp only [mlStn, mb_units hl hf]; field_simp
    · simp only [mlStn, mb_units hl hf]; field_simp
  | ic k EI => rfl

theorem Load.ssM_units (ld : Load K) (L x : K) (hL : L ≠ 0) :
    (ld.units l f).ssM (l * L) (l * x) = f * l * ld.ssM L x := by
  unfold Load.ssM
  rw [Load.stn_units hl hf ld L x hL]
  cases ld.stn L x <;> simp

theorem Load.ssV_units (ld : Load K) (L x : K) (hL : L ≠ 0) :
    (ld.units l f).ssV (l * L) (l * x) = f * ld.ssV L x := by
  unfold Load.ssV
  rw [Load.stn_units hl hf ld L x hL]
  cases ld.stn L x <;> simp

theorem Load.kappaImp_units (ld : Load K) (x : K) :
    (ld.units l f).kappaImp (l * x) = 1 / l * ld.kappaImp x := by
  cases ld <;> simp [Load.units, Load.kappaImp]
  rename_i k EI
  have := polyInc_units hl hf (1 / l) k x
  simpa using this

theorem releaseCnl_units (c : CNL K) (L : K) (hL : L ≠ 0) (et : EType) :
    releaseCnl (c.units l f) (l * L) et = (releaseCnl c L et).units l f := by
  have h1 := hl.ne'
  cases et <;> ext <;> simp only [releaseCnl, CNL.units] <;> field_simp <;> ring

theorem refFF_units (c : CNL K) (Ma Mb L : K) (hL : L ≠ 0) :
    refFF (c.units l f) (f * l * Ma) (f * l * Mb) (l * L) = (refFF c Ma Mb L).units l f := by
  have h1 := hl.ne'
  ext <;> simp only [refFF, CNL.units] <;> field_simp

theorem refTimoFF_units (c : CNL K) (EI G L : K) (hL : L ≠ 0) (hG : G ≠ 0) :
    refTimoFF (c.units l f) (f * l ^ 2 * EI) (f * G) (l * L) = (refTimoFF c EI G L).units l f := by
  have h1 := hl.ne'
  have h2 := hf.ne'
  have hphi : 12 * (f * l ^ 2 * EI) / (f * G * (l * L) ^ 2) = 12 * EI / (G * L ^ 2) := by
    field_simp
  unfold refTimoFF
  simp only [hphi]
  rw [← refFF_units hl hf _ _ _ L hL]
  congr 1 <;> simp only [CNL.units] <;> ring

theorem releaseRef_units (c : CNL K) (k : Except PyErr (Mat4 K)) (L : K) (hL : L ≠ 0)
    (et : EType) :
    releaseRef (c.units l f) (k.map (matUnits l f)) (l * L) et
      = (releaseRef c k L et).map (CNL.units l f) := by
  have h1 := hl.ne'
  have h2 := hf.ne'
  cases et with
  | FF => rfl
  | PP =>
    simp only [releaseRef, Except.map]
    congr 1
    ext <;> simp only [CNL.units, mul_zero] <;> field_simp
  | FP =>
    cases k with
    | error e => rfl
    | ok k =>
      simp only [releaseRef, Except.map]
      have e : matUnits l f k 3 3 = f * l * k 3 3 := by simp [matUnits, forceUnit, dispUnit]
      have e0 : matUnits l f k 0 3 = f * k 0 3 := by simp [matUnits, forceUnit, dispUnit]
      have e1 : matUnits l f k 1 3 = f * l * k 1 3 := by simp [matUnits, forceUnit, dispUnit]
      have e2 : matUnits l f k 2 3 = f * k 2 3 := by simp [matUnits, forceUnit, dispUnit]
      rw [e, e0, e1, e2]
      by_cases hk : k 3 3 = 0
      · simp [hk]
      · rw [if_neg (by simp [h1, h2, hk]), if_neg hk]
        simp only
        congr 1
        ext <;> simp only [CNL.units] <;> field_simp
  | PF =>
    cases k with
    | error e => rfl
    | ok k =>
      simp only [releaseRef, Except.map]
      have e : matUnits l f k 1 1 = f * l * k 1 1 := by simp [matUnits, forceUnit, dispUnit]
      have e0 : matUnits l f k 0 1 = f * k 0 1 := by simp [matUnits, forceUnit, dispUnit]
      have e1 : matUnits l f k 3 1 = f * l * k 3 1 := by simp [matUnits, forceUnit, dispUnit]
      have e2 : matUnits l f k 2 1 = f * k 2 1 := by simp [matUnits, forceUnit, dispUnit]
      rw [e, e0, e1, e2]
      by_cases hk : k 1 1 = 0
      · simp [hk]
      · rw [if_neg (by simp [h1, h2, hk]), if_neg hk]
        simp only
        congr 1
        ext <;> simp only [CNL.units] <;> field_simp

/-- The breakpoints of a rigidity lie on the member. -/
def Rigidity.Within (L : K) (g : Rigidity K) : Prop := ∀ x ∈ g.bps, 0 ≤ x ∧ x ≤ L

theorem pieces_units (bps : List K) (L : K) (hL : 0 < L) (hb : ∀ x ∈ bps, 0 ≤ x ∧ x ≤ L) :
    pieces (bps.map (l * ·)) (l * L) = (pieces bps L).map fun p => (l * p.1, l * p.2) := by
  have hinj : Function.Injective (l * · : K → K) := mul_right_injective₀ hl.ne'
  have nofilter : ∀ (bps : List K) (L : K), 0 < L → (∀ x ∈ bps, 0 ≤ x ∧ x ≤ L) →
      ((bps ++ [0, L]).mergeSort (fun a b => a ≤ b)).dedup.filter
        (fun x => -(1 / 10 ^ 12) ≤ x ∧ x ≤ L + 1 / 10 ^ 12)
        = ((bps ++ [0, L]).mergeSort (fun a b => a ≤ b)).dedup := by
    intro bps L hL hb
    rw [List.filter_eq_self]
    intro x hx
    simp only [List.mem_dedup, List.mem_mergeSort, List.mem_append, List.mem_cons,
      List.not_mem_nil, or_false] at hx
    have : 0 ≤ x ∧ x ≤ L := by
      rcases hx with hx | rfl | rfl
      · exact hb x hx
      · exact ⟨le_rfl, hL.le⟩
      · exact ⟨hL.le, le_rfl⟩
    have h10 : (0 : K) < 1 / 10 ^ 12 := by positivity
    simp only [decide_eq_true_eq]
    constructor <;> linarith [this.1, this.2]
  have hb' : ∀ x ∈ bps.map (l * ·), 0 ≤ x ∧ x ≤ l * L := by
    intro x hx
    obtain ⟨y, hy, rfl⟩ := List.mem_map.1 hx
    obtain ⟨h1, h2⟩ := hb y hy
    exact ⟨by positivity, mul_le_mul_of_nonneg_left h2 hl.le⟩
  have hLl : 0 < l * L := by positivity
  have hsort : ((bps.map (l * ·) ++ [0, l * L]).mergeSort (fun a b => a ≤ b)).dedup
      = (((bps ++ [0, L]).mergeSort (fun a b => a ≤ b)).dedup).map (l * ·) := by
    rw [← List.dedup_map_of_injective hinj, List.map_mergeSort (s := fun a b => decide (a ≤ b))]
    · simp
    · intro a _ b _
      simp [mul_le_mul_iff_of_pos_left hl]
  unfold pieces
  simp only [nofilter bps L hL hb]
  rw [nofilter _ _ hLl hb', hsort]
  generalize ((bps ++ [0, L]).mergeSort (fun a b => a ≤ b)).dedup = e
  have hset : ((e.map (l * ·)).set 0 0).set ((e.map (l * ·)).length - 1) (l * L)
      = ((e.set 0 0).set (e.length - 1) L).map (l * ·) := by
    rw [List.map_set, List.map_set, List.length_map, mul_zero]
  rw [hset]
  generalize (e.set 0 0).set (e.length - 1) L = e'
  rw [← List.map_tail, List.zip_map, List.filter_map]
  have : ((fun p : K × K => decide (p.1 < p.2)) ∘ Prod.map (l * ·) (l * ·))
      = fun p : K × K => decide (p.1 < p.2) := by
    funext p
    simp [mul_lt_mul_iff_of_pos_left hl]
  rw [this]
  rfl

theorem Rigidity.bps_units (g : K) (r : Rigidity K) : (r.units l g).bps = r.bps.map (l * ·) := by
  cases r <;> simp [Rigidity.units, Rigidity.bps]

theorem Rigidity.eval_units (g : K) (r : Rigidity K) (x : K) :
    (r.units l g).eval (l * x) = g * r.eval x := by
  cases r <;> simp [Rigidity.units, Rigidity.eval, mul_div_cancel_left₀ _ hl.ne']

theorem endsZeroed_units (a b x c : K) (φ ψ : K → K) (h : ∀ x, ψ (l * x) = c * φ x) :
    endsZeroed (l * a) (l * b) ψ (l * x) = c * endsZeroed a b φ x := by
  unfold endsZeroed
  have e : ∀ y : K, l * x = l * y ↔ x = y := fun y => mul_right_inj' hl.ne'
  simp only [e, h]
  split_ifs <;> simp

theorem theta0_units (ld : Load K) (EI : Rigidity K) (GAv : Option (Rigidity K)) (L : K)
    (hL : 0 < L) (hE : EI.Within L) (hG : ∀ g, GAv = some g → g.Within L) :
    theta0 (ld.units l f) (EI.units l (f * l ^ 2)) (GAv.map (Rigidity.units l f)) (l * L)
      = theta0 ld EI GAv L := by
  have h1 := hl.ne'
  have h2 := hf.ne'
  have hcurv : ∀ (p : K × K) (x : K),
      endsZeroed (l * p.1) (l * p.2) ((ld.units l f).ssM (l * L)) (l * x)
          / (EI.units l (f * l ^ 2)).eval (l * x) + (ld.units l f).kappaImp (l * x)
        = 1 / l * (endsZeroed p.1 p.2 (ld.ssM L) x / EI.eval x + ld.kappaImp x) := by
    intro p x
    rw [endsZeroed_units hl hf _ _ _ (f * l) (ld.ssM L) _ fun x => Load.ssM_units hl hf ld L x hL.ne',
      Rigidity.eval_units hl hf, Load.kappaImp_units hl hf]
    generalize EI.eval x = e
    by_cases he : e = 0
    · simp [he]
    · field_simp
  have hs0 : ∀ p : K × K, simpson 1000 (fun x => (1 - x / (l * L)) *
      (endsZeroed (l * p.1) (l * p.2) ((ld.units l f).ssM (l * L)) x
          / (EI.units l (f * l ^ 2)).eval x + (ld.units l f).kappaImp x)) (l * p.1) (l * p.2)
      = simpson 1000 (fun x => (1 - x / L) * (endsZeroed p.1 p.2 (ld.ssM L) x / EI.eval x
          + ld.kappaImp x)) p.1 p.2 := by
    intro p
    rw [simpson_units hl hf 1000 (fun x => (1 - x / L) * (endsZeroed p.1 p.2 (ld.ssM L) x / EI.eval x
          + ld.kappaImp x)) _ (1 / l)]
    · field_simp
    · intro x
      rw [hcurv, mul_div_mul_left x L h1]
      ring
  have hs1 : ∀ p : K × K, simpson 1000 (fun x => (-x / (l * L)) *
      (endsZeroed (l * p.1) (l * p.2) ((ld.units l f).ssM (l * L)) x
          / (EI.units l (f * l ^ 2)).eval x + (ld.units l f).kappaImp x)) (l * p.1) (l * p.2)
      = simpson 1000 (fun x => (-x / L) * (endsZeroed p.1 p.2 (ld.ssM L) x / EI.eval x
          + ld.kappaImp x)) p.1 p.2 := by
    intro p
    rw [simpson_units hl hf 1000 (fun x => (-x / L) * (endsZeroed p.1 p.2 (ld.ssM L) x / EI.eval x
          + ld.kappaImp x)) _ (1 / l)]
    · field_simp
    · intro x
      rw [hcurv, ← mul_neg, mul_div_mul_left _ L h1]
      ring
  cases GAv with
  | none =>
    simp only [theta0, Option.map_none, Rigidity.bps_units hl hf, List.append_nil]
    rw [pieces_units hl hf _ L hL hE]
    simp only [List.map_map, Function.comp_def, hs0, hs1]
  | some g =>
    have hb : ∀ x ∈ EI.bps ++ g.bps, 0 ≤ x ∧ x ≤ L := by
      intro x hx
      rcases List.mem_append.1 hx with hx | hx
      · exact hE x hx
      · exact hG g rfl x hx
    have hsh : ∀ p : K × K, simpson 1000 (fun x => (-1 / (l * L)) *
          (endsZeroed (l * p.1) (l * p.2) ((ld.units l f).ssV (l * L)) x
            / (g.units l f).eval x)) (l * p.1) (l * p.2)
        = simpson 1000 (fun x => (-1 / L) *
          (endsZeroed p.1 p.2 (ld.ssV L) x / g.eval x)) p.1 p.2 := by
      intro p
      rw [simpson_units hl hf 1000 (fun x => (-1 / L) *
          (endsZeroed p.1 p.2 (ld.ssV L) x / g.eval x)) _ (1 / l)]
      · field_simp
      · intro x
        rw [endsZeroed_units hl hf _ _ _ f (ld.ssV L) _ fun x => Load.ssV_units hl hf ld L x hL.ne',
          Rigidity.eval_units hl hf]
        generalize g.eval x = e
        by_cases he : e = 0
        · simp [he]
        · have := hL.ne'
          field_simp
    simp only [theta0, Option.map_some, Rigidity.bps_units hl hf, ← List.map_append]
    rw [pieces_units hl hf _ L hL hb]
    simp only [List.map_map, Function.comp_def, hs0, hs1, hsh]

/-- What the change of units asks of a member: positive length, a shear rigidity that is not
zero, breakpoints on the member. -/
structure Member.Regular (m : Member K) : Prop where
  L : 0 < m.L
  G : ∀ g, m.GAv = some (.const g) → g ≠ 0
  EIin : m.EI.Within m.L
  Gin : ∀ g, m.GAv = some g → g.Within m.L

theorem icCnlSection_units (k : List K) (s : SecData K) (L : K) (hL : 0 < L)
    (hb : ∀ x ∈ s.bps, 0 ≤ x ∧ x ≤ L) (ev : K → K) :
    icCnlSection (coeffUnits l (1 / l) k)
        ⟨s.nodes.map fun n => ⟨l * n.x, l * n.w, f * l ^ 2 * n.EI⟩, ev, s.bps.map (l * ·)⟩ (l * L)
      = (icCnlSection k s L).map (CNL.units l f) := by
  have h1 := hl.ne'
  have h2 := hf.ne'
  have h0 : (1 / (f * l) : K) ≠ 0 := by positivity
  unfold icCnlSection
  simp only
  rw [pieces_units hl hf _ L hL hb, inv2_smul hl hf (flexibility s.nodes L) _ (1 / (f * l)) h0
    (flexibility_units hl hf s.nodes L)]
  have e0 : ∀ p : K × K,
      simpson 1000 (fun x => (1 - x / (l * L)) * polyInc (coeffUnits l (1 / l) k) x) (l * p.1) (l * p.2)
      = simpson 1000 (fun x => (1 - x / L) * polyInc k x) p.1 p.2 := by
    intro p
    rw [simpson_units hl hf 1000 (fun x => (1 - x / L) * polyInc k x) _ (1 / l)]
    · field_simp
    · intro x
      simp only [polyInc_units hl hf, mul_div_mul_left x L h1]
      ring
  have e1 : ∀ p : K × K,
      simpson 1000 (fun x => -x / (l * L) * polyInc (coeffUnits l (1 / l) k) x) (l * p.1) (l * p.2)
      = simpson 1000 (fun x => -x / L * polyInc k x) p.1 p.2 := by
    intro p
    rw [simpson_units hl hf 1000 (fun x => -x / L * polyInc k x) _ (1 / l)]
    · field_simp
    · intro x
      simp only [polyInc_units hl hf]
      rw [← mul_neg, mul_div_mul_left _ L h1]
      ring
  simp only [List.map_map, Function.comp_def, e0, e1]
  cases inv2 (flexibility s.nodes L) with
  | error e => rfl
  | ok Kth =>
    simp only [Except.map, of_apply]
    congr 1
    have := hL.ne'
    ext <;> simp only [CNL.units] <;> field_simp

theorem Member.cnl_units (m : Member K) (hm : m.Regular) (ld : Load K) :
    (m.units l f).cnl (ld.units l f) = (m.cnl ld).map (CNL.units l f) := by
  have other : (∀ k E, ld ≠ .ic k E) →
      (m.units l f).cnl (ld.units l f) = (m.cnl ld).map (CNL.units l f) := by
    intro hne
    have e1 : m.cnl ld = match ld.getCnl m.L with
        | .error e => .error e
        | .ok (.plainList _) => .error .attributeError
        | .ok (.cnl c) => .ok c := by
      cases ld <;> first | rfl | exact absurd rfl (hne _ _)
    have e2 : (m.units l f).cnl (ld.units l f) = match (ld.units l f).getCnl (l * m.L) with
        | .error e => .error e
        | .ok (.plainList _) => .error .attributeError
        | .ok (.cnl c) => .ok c := by
      cases ld <;> first | rfl | exact absurd rfl (hne _ _)
    rw [e1, e2, Load.getCnl_units hl hf ld m.L hm.L.ne']
    cases ld.getCnl m.L with
    | error e => rfl
    | ok r => cases r <;> rfl
  cases ld with
  | ic k E =>
    obtain ⟨EI, L, et, GAv⟩ := m
    have hL := hm.L
    cases EI with
    | const e =>
      have := Load.getCnl_units hl hf (.ic k (some e)) L hL.ne'
      simp only [Load.units, Load.getCnl, Option.map_some, Except.map, Except.ok.injEq,
        CnlRet.cnl.injEq] at this
      simp only [Member.units, Load.units, Rigidity.units, Member.cnl, this, Except.map]
    | «section» s =>
      simp only [Member.units, Load.units, Rigidity.units, Member.cnl]
      exact icCnlSection_units hl hf k s L hL hm.EIin _
  | _ => exact other (by intro _ _ h; cases h)

/-- The end forces of a load in other units. -/
theorem Member.ref_units (m : Member K) (hm : m.Regular) (ld : Load K) :
    (m.units l f).ref (ld.units l f) = (m.ref ld).map (CNL.units l f) := by
  have h1 := hl.ne'
  have h2 := hf.ne'
  have h0 : (1 / (f * l) : K) ≠ 0 := by positivity
  have hc := Member.cnl_units hl hf m hm ld
  obtain ⟨EI, L, et, GAv⟩ := m
  have hL := hm.L
  have hE := hm.EIin
  have hG := hm.Gin
  have hG0 := hm.G
  simp only at hL hE hG hG0
  have fin : ∀ (c : CNL K) (Kth : Matrix (Fin 2) (Fin 2) K) (t : K × K) (k : Except PyErr (Mat4 K)),
      releaseRef (refFF (c.units l f)
        ((of fun p q => Kth p q / (1 / (f * l))) 0 0 * t.1
          + (of fun p q => Kth p q / (1 / (f * l))) 0 1 * t.2)
        ((of fun p q => Kth p q / (1 / (f * l))) 1 0 * t.1
          + (of fun p q => Kth p q / (1 / (f * l))) 1 1 * t.2) (l * L))
        (k.map (matUnits l f)) (l * L) et
      = (releaseRef (refFF c (Kth 0 0 * t.1 + Kth 0 1 * t.2) (Kth 1 0 * t.1 + Kth 1 1 * t.2) L)
          k L et).map (CNL.units l f) := by
    intro c Kth t k
    rw [← releaseRef_units hl hf _ _ L hL.ne', ← refFF_units hl hf _ _ _ L hL.ne']
    congr 2 <;> simp only [of_apply] <;> field_simp
  unfold Member.ref
  rw [hc]
  cases (⟨EI, L, et, GAv⟩ : Member K).cnl ld with
  | error e => rfl
  | ok c =>
    have gen : ∀ g, GAv = some g → (match inv2 (timoFlexibility (EI.units l (f * l ^ 2)) (g.units l f)
          (l * L)) with
        | .error e => .error e
        | .ok Kth =>
          let t := theta0 (ld.units l f) (EI.units l (f * l ^ 2)) (some (g.units l f)) (l * L)
          releaseRef (refFF (c.units l f) (Kth 0 0 * t.1 + Kth 0 1 * t.2)
            (Kth 1 0 * t.1 + Kth 1 1 * t.2) (l * L))
            (kTimoshenko (EI.units l (f * l ^ 2)) (g.units l f) (l * L) .FF) (l * L) et :
          Except PyErr (CNL K))
        = (match inv2 (timoFlexibility EI g L) with
        | .error e => .error e
        | .ok Kth =>
          let t := theta0 ld EI (some g) L
          releaseRef (refFF c (Kth 0 0 * t.1 + Kth 0 1 * t.2) (Kth 1 0 * t.1 + Kth 1 1 * t.2) L)
            (kTimoshenko EI g L .FF) L et : Except PyErr (CNL K)).map (CNL.units l f) := by
      intro g hg
      rw [inv2_smul hl hf (timoFlexibility EI g L) _ (1 / (f * l)) h0
        (timoFlexibility_units hl hf EI g L hL.ne')]
      cases inv2 (timoFlexibility EI g L) with
      | error e => rfl
      | ok Kth =>
        simp only [Except.map]
        have ht := theta0_units hl hf ld EI (some g) L hL hE
          (fun g' hg' => by cases hg'; exact hG g hg)
        simp only [Option.map_some] at ht
        rw [ht, kTimoshenko_units hl hf EI g L hL.ne', fin c Kth]
        rfl
    cases GAv with
    | none =>
      cases EI with
      | const e =>
        simp only [Member.units, Rigidity.units, Option.map_none, Except.map]
        rw [releaseCnl_units hl hf c L hL.ne']
      | «section» s =>
        simp only [Member.units, Rigidity.units, Option.map_none, Except.map]
        rw [inv2_smul hl hf (flexibility s.nodes L) _ (1 / (f * l)) h0
          (flexibility_units hl hf s.nodes L)]
        cases inv2 (flexibility s.nodes L) with
        | error e => rfl
        | ok Kth =>
          have ht := theta0_units hl hf ld (.section s) none L hL hE (fun g' hg' => by cases hg')
          simp only [Option.map_none, Rigidity.units] at ht
          simp only [Except.map]
          rw [ht, kNonprismatic_units hl hf s L hL.ne', fin c Kth]
          rfl
    | some g =>
      cases g with
      | const g =>
        cases EI with
        | const e =>
          have hk := kTimoshenko_units hl hf (.const e) (.const g) L hL.ne' .FF
          simp only [Rigidity.units] at hk
          simp only [Member.units, Rigidity.units, Option.map_some, Except.map]
          rw [hk, refTimoFF_units hl hf c e g L hL.ne' (hG0 g rfl), releaseRef_units hl hf _ _ L hL.ne']
          rfl
        | «section» s => exact gen (.const g) rfl
      | «section» sg =>
        cases EI with
        | const e => exact gen (.section sg) rfl
        | «section» s => exact gen (.section sg) rfl

end loads

end PyCBA
