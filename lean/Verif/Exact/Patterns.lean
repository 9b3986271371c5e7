import Verif.Exact.Signs
import Verif.Bridge.Run
import Verif.LoadCases.Pattern

set_option linter.unusedSectionVars false
set_option linter.unusedSimpArgs false

/-!
C120: what load patterning finds.  `LoadPattern.analyze` (`src/pycba/pattern.py` 102-126) envelopes
`N + 2` arrangements of the maximum and minimum loads; there are `2 ^ N` of them.
-/

namespace PyCBA

open MeasureTheory Set Matrix

/-! ### The model -/

section
variable {K : Type*} [Field K] [LinearOrder K] [IsStrictOrderedRing K]

/-- `LoadPattern.analyze`, `pattern.py` 117-126: the load cases of `to_load_cases`, one analysis
of each and the envelope of the results (for members without foundation; `A.npts` is the number
of evaluation points the analyses end up with). -/
def patternAnalyze (A : Analyser K) (b : BeamDef K) (LMg LMq : Option (List (Row K)))
    (gmax gmin qmax qmin : K) : Except PyErr (List (Result K × List (MRes K)) × Envelope K) :=
  match loadPattern b.members.length LMg LMq gmax gmin qmax qmin with
  | .error e => .error e
  | .ok cs => match mapE (fun c : LCase K => runCase b A.stable A.solve A.npts c.loads) cs with
    | .error e => .error e
    | .ok rs => match Envelope.new (rs.map envOf) with
      | .error e => .error e
      | .ok env => .ok (rs, env)

/-! ### Specification -/

/-- A load row that has the maximum factor on the spans of `S` and the minimum elsewhere. -/
def Factored (S : ℤ → Prop) (hi lo : K) (r r' : Row K) : Prop :=
  (S r.span → factorRow hi r = .ok r') ∧ (¬ S r.span → factorRow lo r = .ok r')

/-- The arrangement of dead loads `g` and live loads `q` that has the maximum loads on the spans
of `S` (numbered from 1) and the minimum loads on the others. -/
def Arranged (S : ℤ → Prop) (g q : List (Row K)) (gmax gmin qmax qmin : K) (LM : List (Row K)) :
    Prop :=
  ∃ lg lq, LM = lg ++ lq ∧ List.Forall₂ (Factored S gmax gmin) g lg ∧
    List.Forall₂ (Factored S qmax qmin) q lq

end

/-- A downward load. -/
structure Load.Gravity (L : ℝ) (ld : Load ℝ) : Prop where
  dist : ∀ x ∈ Icc 0 L, 0 ≤ ld.intensity L x
  point : ∀ p ∈ ld.forces, 0 ≤ p.1
  couple : ld.couplesAt = []

/-- Rows of downward loads on the spans of the beam. -/
def GravityRows (b : BeamDef ℝ) (LM : List (Row ℝ)) : Prop :=
  ∀ r ∈ LM, ∃ l i, parseRow r = .ok (some l) ∧ l.iSpan = (i : ℕ) ∧ ∃ hi : i < b.members.length,
    l.load.OnSpan b.members[i].L ∧ l.load.IsMechanical ∧ l.load.Gravity b.members[i].L

/-- The spans (from 1) whose loads cause hogging over support `j` (from 0): the two adjacent ones
and, further on, every other one. -/
def HogSpans (j : ℕ) (s : ℤ) : Prop :=
  ((s - 1 < j) ∧ (s - 1 + j) % 2 = 1) ∨ ((j : ℤ) ≤ s - 1 ∧ (s - 1 + j) % 2 = 0)

/-! ### Work of rows -/

/-- Work of a load through the lines of the beam. -/
noncomputable def spanWork (b : BeamDef ℝ) (v θ : ℕ → ℝ → ℝ) (l : SpanLoad ℝ) : ℝ :=
  ∑ i : Fin b.members.length,
    if l.iSpan = ((i : ℕ) : ℤ) then l.load.work b.members[i].L (v i) (θ i) else 0

/-- Work of a load row. -/
noncomputable def rowWork (b : BeamDef ℝ) (v θ : ℕ → ℝ → ℝ) (r : Row ℝ) : ℝ :=
  match parseRow r with
  | .ok (some l) => spanWork b v θ l
  | _ => 0

theorem loadWork_eq (b : BeamDef ℝ) (v θ : ℕ → ℝ → ℝ) (ls : List (SpanLoad ℝ)) :
    loadWork b ls v θ = (ls.map (spanWork b v θ)).sum := by
  induction ls with
  | nil => simp [loadWork, ownLoads]
  | cons l ls ih =>
    rw [List.map_cons, List.sum_cons, ← ih]
    simp only [loadWork, spanWork]
    rw [← Finset.sum_add_distrib]
    refine Finset.sum_congr rfl fun i _ => ?_
    by_cases h : l.iSpan = ((i : ℕ) : ℤ) <;> simp [ownLoads, List.filter_cons, h]

theorem loadWork_rows (b : BeamDef ℝ) (v θ : ℕ → ℝ → ℝ) :
    ∀ (LM : List (Row ℝ)) (ls : List (SpanLoad ℝ)), parseLM LM = .ok ls →
      (ls.map (spanWork b v θ)).sum = (LM.map (rowWork b v θ)).sum := by
  intro LM
  induction LM with
  | nil => intro ls h; cases h; simp
  | cons r LM ih =>
    intro ls h
    simp only [parseLM] at h
    split at h
    · cases h
    · rename_i o ho
      split at h
      · cases h
      · rename_i ls' hls'
        cases h
        rw [List.map_cons, List.sum_cons, ← ih ls' hls']
        cases o with
        | none => simp [rowWork, ho]
        | some l => simp [rowWork, ho]

theorem intensity_scale (g L x : ℝ) (ld : Load ℝ) :
    (ld.scale g).intensity L x = g * ld.intensity L x := by
  cases ld <;> simp [Load.scale, Load.intensity]
  all_goals ring_nf

theorem Load.work_scale (g L : ℝ) (ld : Load ℝ) (v θ : ℝ → ℝ) :
    (ld.scale g).work L v θ = g * ld.work L v θ := by
  have h1 : ∫ x in (0 : ℝ)..L, (ld.scale g).intensity L x * v x
      = g * ∫ x in (0 : ℝ)..L, ld.intensity L x * v x := by
    rw [← intervalIntegral.integral_const_mul]
    congr 1
    funext x
    rw [intensity_scale]
    ring
  simp only [Load.work, h1]
  cases ld <;> simp [Load.scale, Load.forces, Load.couplesAt] <;> ring

theorem rowWork_factor (b : BeamDef ℝ) (v θ : ℕ → ℝ → ℝ) (g : ℝ) (r r' : Row ℝ)
    (h : factorRow g r = .ok r') (l : SpanLoad ℝ) (ho : parseRow r = .ok (some l)) :
    rowWork b v θ r' = g * rowWork b v θ r := by
  have h2 := parseRow_factor g r r' h _ ho
  simp only [rowWork, ho, h2, Option.map_some]
  simp only [spanWork, Load.work_scale]
  rw [Finset.mul_sum]
  refine Finset.sum_congr rfl fun i _ => ?_
  split_ifs <;> simp

/-- A downward load does negative work through a raised line, positive work through a lowered
one. -/
theorem Load.Gravity.work {L : ℝ} (hL : 0 ≤ L) {ld : Load ℝ} (h : ld.Gravity L) (ho : ld.OnSpan L)
    (v θ : ℝ → ℝ) :
    ((∀ x ∈ Icc 0 L, 0 ≤ v x) → ld.work L v θ ≤ 0) ∧
    ((∀ x ∈ Icc 0 L, v x ≤ 0) → 0 ≤ ld.work L v θ) := by
  have hp : ∀ p ∈ ld.forces, p.2 ∈ Icc 0 L := by
    cases ld <;> simp [Load.forces]
    all_goals exact ho
  constructor
  · intro hv
    have h1 : 0 ≤ ∫ x in (0 : ℝ)..L, ld.intensity L x * v x :=
      intervalIntegral.integral_nonneg hL fun x hx => mul_nonneg (h.dist x hx) (hv x hx)
    have h2 : 0 ≤ (ld.forces.map fun p => p.1 * v p.2).sum :=
      List.sum_nonneg (by
        intro z hz
        obtain ⟨p, hpm, rfl⟩ := List.mem_map.1 hz
        exact mul_nonneg (h.point p hpm) (hv _ (hp p hpm)))
    simp only [Load.work, h.couple, List.map_nil, List.sum_nil]
    linarith
  · intro hv
    have h1 : 0 ≤ ∫ x in (0 : ℝ)..L, ld.intensity L x * -v x :=
      intervalIntegral.integral_nonneg hL fun x hx =>
        mul_nonneg (h.dist x hx) (neg_nonneg.2 (hv x hx))
    have e1 : ∫ x in (0 : ℝ)..L, ld.intensity L x * -v x
        = -∫ x in (0 : ℝ)..L, ld.intensity L x * v x := by
      rw [← intervalIntegral.integral_neg]
      congr 1
      funext x
      ring
    have h2 : 0 ≤ (ld.forces.map fun p => p.1 * -v p.2).sum :=
      List.sum_nonneg (by
        intro z hz
        obtain ⟨p, hpm, rfl⟩ := List.mem_map.1 hz
        exact mul_nonneg (h.point p hpm) (neg_nonneg.2 (hv _ (hp p hpm))))
    have e2 : (ld.forces.map fun p => p.1 * -v p.2).sum
        = -(ld.forces.map fun p => p.1 * v p.2).sum := by
      cases ld <;> simp [Load.forces]
    simp only [Load.work, h.couple, List.map_nil, List.sum_nil]
    linarith

/-- Comparing two arrangements: if the work of every row is least with the factor the first one
has, the first one does the least work. -/
theorem work_le {b : BeamDef ℝ} {v θ : ℕ → ℝ → ℝ} (hL : ∀ m ∈ b.members, 0 < m.L) {P S : ℤ → Prop}
    {hi lo : ℝ} (hlo : lo ≤ hi)
    (hsg : ∀ i (h : i < b.members.length), (P ((i : ℤ) + 1) → ∀ x ∈ Icc 0 b.members[i].L, 0 ≤ v i x) ∧
      (¬ P ((i : ℤ) + 1) → ∀ x ∈ Icc 0 b.members[i].L, v i x ≤ 0)) :
    ∀ (LM l1 l2 : List (Row ℝ)), GravityRows b LM → List.Forall₂ (Factored P hi lo) LM l1 →
      List.Forall₂ (Factored S hi lo) LM l2 →
      (l1.map (rowWork b v θ)).sum ≤ (l2.map (rowWork b v θ)).sum := by
  intro LM
  induction LM with
  | nil => intro l1 l2 _ h1 h2; cases h1; cases h2; simp
  | cons r LM ih =>
    intro l1 l2 hg h1 h2
    cases h1 with
    | cons f1 h1 =>
    cases h2 with
    | cons f2 h2 =>
    rename_i r1 l1 r2 l2
    simp only [List.map_cons, List.sum_cons]
    refine add_le_add ?_ (ih l1 l2 (fun r hr => hg r (List.mem_cons_of_mem _ hr)) h1 h2)
    obtain ⟨l, i, hp, hi', hin, ho, hm, hgr⟩ := hg r (by simp)
    have hspan : r.span = (i : ℤ) + 1 := by
      have : l.iSpan = r.span - 1 := by
        unfold parseRow at hp
        simp only at hp
        repeat' split at hp
        all_goals first
          | (cases hp; rfl)
          | cases hp
      omega
    have hw : rowWork b v θ r = l.load.work b.members[i].L (v i) (θ i) := by
      simp only [rowWork, hp, spanWork, hi']
      rw [Finset.sum_eq_single (⟨i, hin⟩ : Fin b.members.length)]
      · simp
      · intro k _ hk
        rw [if_neg]
        intro h
        apply hk
        ext
        simp only
        omega
      · simp
    obtain ⟨w1, w2⟩ := hgr.work (hL _ (List.getElem_mem hin)).le ho (v i) (θ i)
    obtain ⟨s1, s2⟩ := hsg i hin
    have key : ∀ {γ : ℝ} {r' : Row ℝ}, factorRow γ r = .ok r' →
        rowWork b v θ r' = γ * rowWork b v θ r := fun h => rowWork_factor b v θ _ _ _ h l hp
    rw [← hspan] at s1 s2
    by_cases hP : P r.span <;> by_cases hS : S r.span
    · rw [key (f1.1 hP), key (f2.1 hS)]
    · rw [key (f1.1 hP), key (f2.2 hS), hw]
      nlinarith [w1 (s1 hP)]
    · rw [key (f1.2 hP), key (f2.1 hS), hw]
      nlinarith [w2 (s2 hP)]
    · rw [key (f1.2 hP), key (f2.2 hS)]


/-! ### Analysing an arrangement -/

theorem parseLM_mem : ∀ (LM : List (Row ℝ)) (ls : List (SpanLoad ℝ)), parseLM LM = .ok ls →
    ∀ l ∈ ls, ∃ r ∈ LM, parseRow r = .ok (some l) := by
  intro LM
  induction LM with
  | nil => intro ls h l hl; cases h; simp at hl
  | cons r LM ih =>
    intro ls h l hl
    simp only [parseLM] at h
    split at h
    · cases h
    · rename_i o ho
      split at h
      · cases h
      · rename_i ls' hls'
        cases h
        cases o with
        | none =>
          obtain ⟨r', h1, h2⟩ := ih ls' hls' l hl
          exact ⟨r', List.mem_cons_of_mem _ h1, h2⟩
        | some l0 =>
          rcases List.mem_cons.1 hl with rfl | hl
          · exact ⟨r, by simp, ho⟩
          · obtain ⟨r', h1, h2⟩ := ih ls' hls' l hl
            exact ⟨r', List.mem_cons_of_mem _ h1, h2⟩

theorem forall₂_mem_right {α β : Type*} {R : α → β → Prop} {l : List α} {l' : List β}
    (h : List.Forall₂ R l l') : ∀ y ∈ l', ∃ x ∈ l, R x y := by
  induction h with
  | nil => simp
  | cons h1 _ ih =>
    intro y hy
    rcases List.mem_cons.1 hy with rfl | hy
    · exact ⟨_, by simp, h1⟩
    · obtain ⟨x, hx, h2⟩ := ih y hy
      exact ⟨x, List.mem_cons_of_mem _ hx, h2⟩

/-- The loads of an arrangement stay on their spans, and are no couples. -/
theorem Arranged.loads {b : BeamDef ℝ} {S : ℤ → Prop} {g q LM : List (Row ℝ)}
    {gmax gmin qmax qmin : ℝ} (h : Arranged S g q gmax gmin qmax qmin LM) (hg : GravityRows b g)
    (hq : GravityRows b q) {ls : List (SpanLoad ℝ)} (hls : parseLM LM = .ok ls) :
    ∀ l ∈ ls, ∃ i : ℕ, l.iSpan = i ∧ ∃ hi : i < b.members.length,
      l.load.OnSpan b.members[i].L ∧ l.load.IsMechanical ∧ l.load.couplesAt = [] := by
  intro l hl
  obtain ⟨r', hr', hp'⟩ := parseLM_mem LM ls hls l hl
  obtain ⟨lg, lq, rfl, f1, f2⟩ := h
  have key : ∀ {base : List (Row ℝ)} {out : List (Row ℝ)} {hi lo : ℝ}, GravityRows b base →
      List.Forall₂ (Factored S hi lo) base out → r' ∈ out →
      ∃ i : ℕ, l.iSpan = i ∧ ∃ hi : i < b.members.length,
        l.load.OnSpan b.members[i].L ∧ l.load.IsMechanical ∧ l.load.couplesAt = [] := by
    intro base out hi lo hb hf hm
    obtain ⟨r, hr, hF⟩ := forall₂_mem_right hf r' hm
    obtain ⟨l0, i, hp, hi', hin, ho, hmech, hgr⟩ := hb r hr
    obtain ⟨γ, hγ⟩ : ∃ γ, factorRow γ r = .ok r' := by
      by_cases hS : S r.span
      · exact ⟨_, hF.1 hS⟩
      · exact ⟨_, hF.2 hS⟩
    have h2 := parseRow_factor γ r r' hγ _ hp
    rw [hp'] at h2
    simp only [Option.map_some, Except.ok.injEq, Option.some.injEq] at h2
    subst h2
    refine ⟨i, hi', hin, ?_, ?_, ?_⟩
    · cases hl0 : l0.load <;> rw [hl0] at ho <;> exact ho
    · cases hl0 : l0.load <;> rw [hl0] at hmech <;> exact hmech
    · have := hgr.couple
      cases hl0 : l0.load <;> rw [hl0] at this <;> simp [Load.couplesAt, Load.scale] at this ⊢
  rcases List.mem_append.1 hr' with hm | hm
  · exact key hg f1 hm
  · exact key hq f2 hm

/-- The stations of a member in an analysis of a load case. -/
theorem runCase_stations_def {A : Analyser ℝ} (hsol : A.solve.Sound) {b : BeamDef ℝ}
    {LM : List (Row ℝ)} {r : Result ℝ × List (MRes ℝ)}
    (hr : runCase b A.stable A.solve A.npts LM = .ok r) :
    r.2.length = b.members.length ∧ ∀ j (hj : j < b.members.length) (hj' : j < r.2.length),
      r.2[j].n = A.npts + 3 ∧ ∀ k, 0 < k → k + 1 < A.npts + 3 →
        r.2[j].x k = b.nodeX j + ((k - 1 : ℕ) : ℝ) * (b.members[j].L / A.npts) := by
  obtain ⟨h1, h2⟩ := runCase_ok hr
  refine ⟨(BeamDef.memberResults_ok h2).1, fun j hj hj' => ?_⟩
  obtain ⟨ls', kk, t, c, hls', _, _, _, m1, m2, m3, m4, m5, m6, hc⟩ :=
    BeamDef.results_member hsol h1 h2 j hj hj'
  have hgrid : c.grid = uniformGrid b.members[j].L A.npts := by
    simp only [MCtx.grid, m6, m5, m1, memberGrid, shearPairs, insidePoints]
    simp
  have hgl : c.grid.length = A.npts + 1 := by rw [hgrid]; simp [uniformGrid]
  have hcn : c.n = A.npts + 3 := by rw [MCtx.n, hgl]
  refine ⟨by rw [hc]; exact hcn, fun k hk hk' => ?_⟩
  have e1 : r.2[j].x k = c.x k + b.nodeX j := by rw [hc]; rfl
  rw [e1, MCtx.x, padded, if_neg (by omega), if_pos (by omega), hgrid, uniformGrid]
  simp only [List.getD_eq_getElem?_getD, List.getElem?_map, List.getElem?_range
    (show k - 1 < A.npts + 1 by omega), Option.map_some, Option.getD_some]
  ring

/-- The moment reported for an arrangement is minus the work of its rows through the line of the
beam broken at the station. -/
theorem arranged_moment {A : Analyser ℝ} (hsol : A.solve.Sound) (hn : 0 < A.npts) {b : BeamDef ℝ}
    (hb : b.Slender []) (hc : b.Continuous) {S : ℤ → Prop} {g q LM : List (Row ℝ)}
    {gmax gmin qmax qmin : ℝ} (hg : GravityRows b g) (hq : GravityRows b q)
    (hA : Arranged S g q gmax gmin qmax qmin LM) {r : Result ℝ × List (MRes ℝ)}
    (hr : runCase b A.stable A.solve A.npts LM = .ok r) (j : ℕ) (hj : j < b.members.length)
    (hj' : j < r.2.length) (k : ℕ) (hk : 0 < k) (hk' : k + 1 < A.npts + 3) {y : ℕ → ℝ}
    {G : ℕ → Vec4 ℝ} {ηl φl : ℝ → ℝ} {η φ : ℕ → ℝ → ℝ} {x0 : ℝ}
    (hx0 : x0 = ((k - 1 : ℕ) : ℝ) * (b.members[j].L / A.npts))
    (hB : BrokenBeam b j x0 0 (-1) y G ηl φl η φ) :
    r.2[j].M k = -(LM.map (rowWork b (brokenLine j x0 ηl η) (brokenLine j x0 φl φ))).sum := by
  obtain ⟨h1, h2⟩ := runCase_ok hr
  obtain ⟨-, hst⟩ := runCase_stations_def hsol hr
  obtain ⟨hn', hx⟩ := hst j hj hj'
  set d : BeamDef ℝ := { b with LM := LM } with hd
  obtain ⟨s, hs, -⟩ := BeamDef.analyze_ok h1
  obtain ⟨_, _, ⟨ls, hls, -⟩, -⟩ := BeamDef.system_ok hs
  have hp : parseLM LM = .ok ls := by
    unfold BeamDef.setLoads at hls
    split at hls
    · cases hls
    · rename_i l hl
      split at hls
      · cases hls; exact hl
      · cases hls
  have hl := hA.loads hg hq hp
  have hbs : d.Slender ls := by
    refine ⟨hb.pos, hb.prismatic, fun i hi l hlm hli => ?_⟩
    obtain ⟨i', e, hi', o1, o2, -⟩ := hl l hlm
    have : i = i' := by omega
    subst this
    exact ⟨o1, o2⟩
  have hpp : d.PinsBalanced ls := d.pinsBalanced_of (fun m hm => by rw [hc.rigid m hm]; simp) ls
  have hB' : BrokenBeam d j x0 0 (-1) y G ηl φl η φ :=
    ⟨hB.span, hB.broken, hB.left, hB.right, hB.rotLeft, hB.rotRight, hB.prescribed, hB.rigid, hB.free⟩
  have key := (C109_internal_partial d ls hls hbs hpp hc.unsettled A.stable A.solve hsol r.1 h1
    A.npts hn _ r.2 h2 j hj hj' k hk (by rw [hn']; exact hk') x0 (by
      rw [hx k hk hk', hx0]; rfl)).2 (by
      intro ld hld p hpm
      simp only [ownLoads, List.mem_map, List.mem_filter] at hld
      obtain ⟨l, ⟨hlm, -⟩, rfl⟩ := hld
      obtain ⟨_, _, _, _, _, hc0⟩ := hl l hlm
      rw [hc0] at hpm
      simp at hpm) y G ηl φl η φ hB'
  rw [key, loadWork_eq, loadWork_rows _ _ _ LM ls hp]
  rfl


theorem Load.work_neg (L : ℝ) (ld : Load ℝ) (v θ : ℝ → ℝ) :
    ld.work L (-v) (-θ) = -ld.work L v θ := by
  have h1 : ∫ x in (0 : ℝ)..L, ld.intensity L x * (-v) x
      = -∫ x in (0 : ℝ)..L, ld.intensity L x * v x := by
    rw [← intervalIntegral.integral_neg]
    congr 1
    funext x
    simp
  simp only [Load.work, h1]
  cases ld <;> simp [Load.forces, Load.couplesAt] <;> ring

theorem rowWork_neg (b : BeamDef ℝ) (v θ : ℕ → ℝ → ℝ) (r : Row ℝ) :
    rowWork b (fun i => -v i) (fun i => -θ i) r = -rowWork b v θ r := by
  simp only [rowWork]
  split
  · simp only [spanWork, Load.work_neg]
    rw [← Finset.sum_neg_distrib]
    refine Finset.sum_congr rfl fun i _ => ?_
    split_ifs <;> simp
  · simp

theorem arranged_le {b : BeamDef ℝ} {v θ : ℕ → ℝ → ℝ} (hL : ∀ m ∈ b.members, 0 < m.L)
    {P S : ℤ → Prop} {g q l1 l2 : List (Row ℝ)} {gmax gmin qmax qmin : ℝ} (hgg : gmin ≤ gmax)
    (hqq : qmin ≤ qmax) (hg : GravityRows b g) (hq : GravityRows b q)
    (h1 : Arranged P g q gmax gmin qmax qmin l1) (h2 : Arranged S g q gmax gmin qmax qmin l2) :
    ((∀ i (h : i < b.members.length),
        (P ((i : ℤ) + 1) → ∀ x ∈ Icc 0 b.members[i].L, 0 ≤ v i x) ∧
        (¬ P ((i : ℤ) + 1) → ∀ x ∈ Icc 0 b.members[i].L, v i x ≤ 0)) →
      (l1.map (rowWork b v θ)).sum ≤ (l2.map (rowWork b v θ)).sum) ∧
    ((∀ i (h : i < b.members.length),
        (P ((i : ℤ) + 1) → ∀ x ∈ Icc 0 b.members[i].L, v i x ≤ 0) ∧
        (¬ P ((i : ℤ) + 1) → ∀ x ∈ Icc 0 b.members[i].L, 0 ≤ v i x)) →
      (l2.map (rowWork b v θ)).sum ≤ (l1.map (rowWork b v θ)).sum) := by
  obtain ⟨a1, c1, rfl, p1, p2⟩ := h1
  obtain ⟨a2, c2, rfl, s1, s2⟩ := h2
  constructor
  · intro h
    simp only [List.map_append, List.sum_append]
    exact add_le_add (work_le hL hgg h _ _ _ hg p1 s1) (work_le hL hqq h _ _ _ hq p2 s2)
  · intro h
    have h' : ∀ i (h : i < b.members.length),
        (P ((i : ℤ) + 1) → ∀ x ∈ Icc 0 b.members[i].L, 0 ≤ (-v i) x) ∧
        (¬ P ((i : ℤ) + 1) → ∀ x ∈ Icc 0 b.members[i].L, (-v i) x ≤ 0) := fun i hi =>
      ⟨fun hp x hx => neg_nonneg.2 ((h i hi).1 hp x hx),
        fun hp x hx => neg_nonpos.2 ((h i hi).2 hp x hx)⟩
    have e : ∀ l : List (Row ℝ), (l.map (rowWork b (fun i => -v i) (fun i => -θ i))).sum
        = -(l.map (rowWork b v θ)).sum := by
      intro l
      induction l with
      | nil => simp
      | cons r l ih =>
        simp only [List.map_cons, List.sum_cons, ih, rowWork_neg]
        ring
    have k1 := work_le (v := fun i => -v i) (θ := fun i => -θ i) hL hgg h' _ _ _ hg p1 s1
    have k2 := work_le (v := fun i => -v i) (θ := fun i => -θ i) hL hqq h' _ _ _ hq p2 s2
    rw [e, e] at k1 k2
    simp only [List.map_append, List.sum_append]
    linarith

/-! ### The results of patterning -/

theorem PatternOf.arranged {N k : ℕ} {g q : List (Row ℝ)} {gmax gmin qmax qmin : ℝ} {c : LCase ℝ}
    (h : PatternOf N k g q gmax gmin qmax qmin c) :
    Arranged (Designated N k) g q gmax gmin qmax qmin c.loads := by
  obtain ⟨hl, h1, h2⟩ := h
  refine ⟨c.loads.take g.length, c.loads.drop g.length, (List.take_append_drop _ _).symm, ?_, ?_⟩
  · rw [List.forall₂_iff_get]
    refine ⟨by simp [hl], fun i hi hi' => ?_⟩
    simp only [List.get_eq_getElem, List.getElem_take]
    exact h1 i hi (by omega)
  · rw [List.forall₂_iff_get]
    refine ⟨by simp [hl], fun i hi hi' => ?_⟩
    simp only [List.get_eq_getElem, List.getElem_drop]
    exact h2 i hi (by omega)

theorem concat_const {K : Type*} [Field K] [LinearOrder K] [IsStrictOrderedRing K] (n : ℕ)
    (a : MRes K → ℕ → K) :
    ∀ (rs : List (MRes K)), (∀ r ∈ rs, r.n = n) → ∀ j (hj : j < rs.length) (k : ℕ), k < n →
      (concatResults rs a).getD (j * n + k) 0 = a rs[j] k := by
  intro rs
  induction rs with
  | nil => intro _ j hj; simp at hj
  | cons r rs ih =>
    intro h j hj k hk
    have hr : r.n = n := h r (by simp)
    simp only [concatResults, List.flatMap_cons, MRes.list]
    cases j with
    | zero =>
      rw [List.getD_append _ _ _ _ (by simp [hr]; omega), List.getD_eq_getElem?_getD]
      simp [hr, hk]
    | succ j =>
      rw [List.getD_append_right _ _ _ _ (by simp [hr]; nlinarith)]
      simp only [List.length_map, List.length_range, hr, List.getElem_cons_succ]
      rw [show (j + 1) * n + k - n = j * n + k by rw [Nat.succ_mul]; omega]
      exact ih (fun r hr => h r (List.mem_cons_of_mem _ hr)) j (by simpa using hj) k hk

theorem envOf_M {A : Analyser ℝ} (hsol : A.solve.Sound) {b : BeamDef ℝ} {LM : List (Row ℝ)}
    {r : Result ℝ × List (MRes ℝ)} (hr : runCase b A.stable A.solve A.npts LM = .ok r) (j : ℕ)
    (hj' : j < r.2.length) (k : ℕ) (hk : k < A.npts + 3) :
    (envOf r).M (j * (A.npts + 3) + k) = r.2[j].M k := by
  obtain ⟨hlen, hst⟩ := runCase_stations_def hsol hr
  refine concat_const (A.npts + 3) MRes.M r.2 (fun m hm => ?_) j hj' k hk
  obtain ⟨i, hi, rfl⟩ := List.getElem_of_mem hm
  exact (hst i (by omega) hi).1

/-- The analyses of patterning: one for each pattern. -/
theorem patternAnalyze_ok {A : Analyser ℝ} {b : BeamDef ℝ} (hN : 1 ≤ b.members.length)
    {g q : List (Row ℝ)} {gmax gmin qmax qmin : ℝ} {rs : List (Result ℝ × List (MRes ℝ))}
    {env : Envelope ℝ}
    (h : patternAnalyze A b (some g) (some q) gmax gmin qmax qmin = .ok (rs, env)) :
    Envelope.new (rs.map envOf) = .ok env ∧ rs.length = b.members.length + 2 ∧
    ∀ p (hp : p < rs.length), ∃ LM,
      Arranged (Designated b.members.length p) g q gmax gmin qmax qmin LM ∧
      runCase b A.stable A.solve A.npts LM = .ok rs[p] := by
  unfold patternAnalyze at h
  split at h
  · cases h
  rename_i cs hcs
  split at h
  · cases h
  rename_i rs' hrs
  split at h
  · cases h
  rename_i env' henv
  cases h
  obtain ⟨g1, q1, g0, q0, f1, f2, f3, f4⟩ : ∃ g1 q1 g0 q0, factorLM gmax g = .ok g1 ∧
      factorLM qmax q = .ok q1 ∧ factorLM gmin g = .ok g0 ∧ factorLM qmin q = .ok q0 := by
    simp only [loadPattern] at hcs
    split at hcs
    · exact ⟨_, _, _, _, ‹_›, ‹_›, ‹_›, ‹_›⟩
    all_goals cases hcs
  obtain ⟨cs', e, hl, -, hP⟩ := C42_patterns _ hN g q g1 q1 g0 q0 gmax gmin qmax qmin f1 f2 f3 f4
  rw [hcs] at e
  cases e
  obtain ⟨l1, l2⟩ := mapE_ok hrs
  exact ⟨henv, by omega, fun p hp => ⟨_, (hP p (by omega)).1.arranged, l2 p (by omega) hp⟩⟩

/-- The moments at station `k` of member `j` under all arrangements of the loads, together with
the zero an envelope starts from. -/
def ArrangedMoments (A : Analyser ℝ) (b : BeamDef ℝ) (g q : List (Row ℝ))
    (gmax gmin qmax qmin : ℝ) (j k : ℕ) : Set ℝ :=
  {0} ∪ {y | ∃ S LM r, Arranged S g q gmax gmin qmax qmin LM ∧
    runCase b A.stable A.solve A.npts LM = .ok r ∧ ∃ hj : j < r.2.length, r.2[j].M k = y}

theorem pattern_extreme {A : Analyser ℝ} (hsol : A.solve.Sound) (hn : 0 < A.npts) {b : BeamDef ℝ}
    (hb : b.Slender []) (hc : b.Continuous) {g q : List (Row ℝ)} {gmax gmin qmax qmin : ℝ}
    (hgg : gmin ≤ gmax) (hqq : qmin ≤ qmax) (hg : GravityRows b g) (hq : GravityRows b q)
    {rs : List (Result ℝ × List (MRes ℝ))} {env : Envelope ℝ}
    (h : patternAnalyze A b (some g) (some q) gmax gmin qmax qmin = .ok (rs, env)) (j : ℕ)
    (hj : j < b.members.length) (k : ℕ) (hk : 0 < k) (hk' : k + 1 < A.npts + 3) {y : ℕ → ℝ}
    {G : ℕ → Vec4 ℝ} {ηl φl : ℝ → ℝ} {η φ : ℕ → ℝ → ℝ} {x0 : ℝ}
    (hx0 : x0 = ((k - 1 : ℕ) : ℝ) * (b.members[j].L / A.npts))
    (hB : BrokenBeam b j x0 0 (-1) y G ηl φl η φ) (p : ℕ) (hp : p < b.members.length + 2) :
    ((∀ i (h : i < b.members.length),
        (Designated b.members.length p ((i : ℤ) + 1) → ∀ x ∈ Icc 0 b.members[i].L,
          0 ≤ brokenLine j x0 ηl η i x) ∧
        (¬ Designated b.members.length p ((i : ℤ) + 1) → ∀ x ∈ Icc 0 b.members[i].L,
          brokenLine j x0 ηl η i x ≤ 0)) →
      IsGreatest (ArrangedMoments A b g q gmax gmin qmax qmin j k)
        (env.Mmax (j * (A.npts + 3) + k))) ∧
    ((∀ i (h : i < b.members.length),
        (Designated b.members.length p ((i : ℤ) + 1) → ∀ x ∈ Icc 0 b.members[i].L,
          brokenLine j x0 ηl η i x ≤ 0) ∧
        (¬ Designated b.members.length p ((i : ℤ) + 1) → ∀ x ∈ Icc 0 b.members[i].L,
          0 ≤ brokenLine j x0 ηl η i x)) →
      IsLeast (ArrangedMoments A b g q gmax gmin qmax qmin j k)
        (env.Mmin (j * (A.npts + 3) + k))) := by
  obtain ⟨henv, hlen, hrs⟩ := patternAnalyze_ok (by omega) h
  obtain ⟨hE, -⟩ := C28_envelope_attained _ _ henv
  obtain ⟨hmax, hmin, -, -⟩ := hE (j * (A.npts + 3) + k)
  -- the values of the envelope are those of arrangements
  have hval : ∀ z ∈ ({0} ∪ {y | ∃ r ∈ rs.map envOf, r.M (j * (A.npts + 3) + k) = y} : Set ℝ),
      z ∈ ArrangedMoments A b g q gmax gmin qmax qmin j k := by
    rintro z (hz | ⟨e, he, rfl⟩)
    · exact Or.inl hz
    · obtain ⟨r, hr, rfl⟩ := List.mem_map.1 he
      obtain ⟨i, hi, rfl⟩ := List.getElem_of_mem hr
      obtain ⟨LM, hA, hrun⟩ := hrs i hi
      have hj' : j < rs[i].2.length := by rw [(runCase_stations_def hsol hrun).1]; exact hj
      exact Or.inr ⟨_, LM, rs[i], hA, hrun, hj', (envOf_M hsol hrun j hj' k (by omega)).symm⟩
  obtain ⟨LM, hA, hrun⟩ := hrs p (by omega)
  have hj' : j < rs[p].2.length := by rw [(runCase_stations_def hsol hrun).1]; exact hj
  have hMp := arranged_moment hsol hn hb hc hg hq hA hrun j hj hj' k hk hk' hx0 hB
  have hmem : (rs[p].2[j].M k) ∈
      ({0} ∪ {y | ∃ r ∈ rs.map envOf, r.M (j * (A.npts + 3) + k) = y} : Set ℝ) :=
    Or.inr ⟨envOf rs[p], List.mem_map.2 ⟨_, List.getElem_mem _, rfl⟩,
      envOf_M hsol hrun j hj' k (by omega)⟩
  constructor
  · intro hsg
    refine ⟨hval _ hmax.1, ?_⟩
    rintro z (rfl | ⟨S, LM', r, hA', hrun', hjr, rfl⟩)
    · exact hmax.2 (Or.inl rfl)
    · rw [arranged_moment hsol hn hb hc hg hq hA' hrun' j hj hjr k hk hk' hx0 hB]
      have := (arranged_le (θ := brokenLine j x0 φl φ) hb.pos hgg hqq hg hq hA hA').1 hsg
      have := hmax.2 hmem
      linarith
  · intro hsg
    refine ⟨hval _ hmin.1, ?_⟩
    rintro z (rfl | ⟨S, LM', r, hA', hrun', hjr, rfl⟩)
    · exact hmin.2 (Or.inl rfl)
    · rw [arranged_moment hsol hn hb hc hg hq hA' hrun' j hj hjr k hk hk' hx0 hB]
      have := (arranged_le (θ := brokenLine j x0 φl φ) hb.pos hgg hqq hg hq hA hA').2 hsg
      have := hmin.2 hmem
      linarith


/-! ### The theorems -/

theorem designated_odd {N : ℕ} {i : ℕ} (h : i < N) : Designated N (N - 1) ((i : ℤ) + 1) ↔ Even i := by
  unfold Designated
  rw [if_neg (by omega), if_pos rfl, Nat.even_iff]
  omega

theorem designated_even {N : ℕ} {i : ℕ} (h : i < N) : Designated N N ((i : ℤ) + 1) ↔ ¬ Even i := by
  unfold Designated
  rw [if_neg (by omega), if_neg (by omega), if_pos rfl, Nat.even_iff]
  omega

theorem MidSign.pos {j i : ℕ} {w : ℝ} (h : MidSign j i w) (he : Even (i + j)) : 0 ≤ w := by
  unfold MidSign at h; rwa [if_pos he] at h

theorem MidSign.neg {j i : ℕ} {w : ℝ} (h : MidSign j i w) (he : ¬ Even (i + j)) : w ≤ 0 := by
  unfold MidSign at h; rwa [if_neg he] at h

theorem SupportSign.hog {j i : ℕ} {w : ℝ} (h : SupportSign j i w) :
    (HogSpans j ((i : ℤ) + 1) → w ≤ 0) ∧ (¬ HogSpans j ((i : ℤ) + 1) → 0 ≤ w) := by
  unfold SupportSign at h
  unfold HogSpans
  simp only [Nat.even_iff] at h
  constructor
  · intro hh
    split_ifs at h <;> first | exact h | (exfalso; omega)
  · intro hh
    split_ifs at h <;> first | exact h | (exfalso; omega)

/-- The station `k` of a member in its middle third. -/
theorem mid_station {L : ℝ} (hL : 0 < L) {n k : ℕ} (hn : 0 < n) (h0 : n ≤ 3 * (k - 1))
    (h1 : 3 * (k - 1) ≤ 2 * n) :
    L / 3 ≤ ((k - 1 : ℕ) : ℝ) * (L / n) ∧ ((k - 1 : ℕ) : ℝ) * (L / n) ≤ 2 * L / 3 := by
  have hnR : (0 : ℝ) < n := by exact_mod_cast hn
  have e0 : (n : ℝ) ≤ 3 * ((k - 1 : ℕ) : ℝ) := by exact_mod_cast h0
  have e1 : 3 * ((k - 1 : ℕ) : ℝ) ≤ 2 * n := by exact_mod_cast h1
  have e : ((k - 1 : ℕ) : ℝ) * (L / n) * n = ((k - 1 : ℕ) : ℝ) * L := by field_simp
  constructor
  · rw [div_le_iff₀ (by norm_num), ← mul_le_mul_iff_left₀ hnR]
    nlinarith
  · rw [le_div_iff₀ (by norm_num), ← mul_le_mul_iff_left₀ hnR]
    nlinarith

/-- **C120**, sagging: at every station in the middle third of a span of a continuous beam under
downward loads, the moments that patterning reports are the greatest and the least of all
arrangements of maximum and minimum loads over the spans. -/
theorem C120_sagging_partial (A : Analyser ℝ) (hsol : A.solve.Sound) (hn : 0 < A.npts)
    (b : BeamDef ℝ) (hb : b.Slender []) (hc : b.Continuous) (g q : List (Row ℝ))
    (gmax gmin qmax qmin : ℝ) (hgg : gmin ≤ gmax) (hqq : qmin ≤ qmax) (hg : GravityRows b g)
    (hq : GravityRows b q) (rs : List (Result ℝ × List (MRes ℝ))) (env : Envelope ℝ)
    (h : patternAnalyze A b (some g) (some q) gmax gmin qmax qmin = .ok (rs, env)) (j : ℕ)
    (hj : j < b.members.length) (k : ℕ) (hk : A.npts ≤ 3 * (k - 1))
    (hk' : 3 * (k - 1) ≤ 2 * A.npts) :
    IsGreatest (ArrangedMoments A b g q gmax gmin qmax qmin j k) (env.Mmax (j * (A.npts + 3) + k)) ∧
    IsLeast (ArrangedMoments A b g q gmax gmin qmax qmin j k) (env.Mmin (j * (A.npts + 3) + k)) := by
  have hL := hb.pos _ (List.getElem_mem hj)
  obtain ⟨m0, m1⟩ := mid_station hL hn hk hk'
  obtain ⟨y, G, ηl, φl, η, φ, hB⟩ := hc.broken hb j hj
    (((k - 1 : ℕ) : ℝ) * (b.members[j].L / A.npts)) ⟨by linarith, by linarith⟩ 0 (-1)
  have hs := C119_span_partial b [] hb hc j hj _ m0 m1 y G ηl φl η φ hB
  have key := pattern_extreme hsol hn hb hc hgg hqq hg hq h j hj k (by omega) (by omega) rfl hB
  by_cases hje : Even j
  · refine ⟨(key (b.members.length - 1) (by omega)).1 fun i hi => ?_,
      (key b.members.length (by omega)).2 fun i hi => ?_⟩
    · rw [designated_odd hi]
      exact ⟨fun he x hx => (hs i hi x hx).pos (he.add hje),
        fun he x hx => (hs i hi x hx).neg fun h => he ((Nat.even_add.1 h).2 hje)⟩
    · rw [designated_even hi]
      exact ⟨fun he x hx => (hs i hi x hx).neg fun h => he ((Nat.even_add.1 h).2 hje),
        fun he x hx => (hs i hi x hx).pos ((not_not.1 he).add hje)⟩
  · refine ⟨(key b.members.length (by omega)).1 fun i hi => ?_,
      (key (b.members.length - 1) (by omega)).2 fun i hi => ?_⟩
    · rw [designated_even hi]
      exact ⟨fun he x hx => (hs i hi x hx).pos (Nat.even_add.2 (iff_of_false he hje)),
        fun he x hx => (hs i hi x hx).neg fun h => hje ((Nat.even_add.1 h).1 (not_not.1 he))⟩
    · rw [designated_odd hi]
      exact ⟨fun he x hx => (hs i hi x hx).neg fun h => hje ((Nat.even_add.1 h).1 he),
        fun he x hx => (hs i hi x hx).pos (Nat.even_add.2 (iff_of_false he hje))⟩

/-- Station `k` of member `i` is at support `j`: at the start of the span right of it, or at the
end of the span left of it. -/
def AtSupport (npts i k j : ℕ) : Prop := (i = j ∧ k = 1) ∨ (i + 1 = j ∧ k = npts + 1)

theorem support_broken {A : Analyser ℝ} (hn : 0 < A.npts) {b : BeamDef ℝ} (hb : b.Slender [])
    (hc : b.Continuous) {i : ℕ} (hi : i < b.members.length) {k j : ℕ} (hk : AtSupport A.npts i k j) :
    0 < k ∧ k + 1 < A.npts + 3 ∧ ∃ y G ηl φl η φ x0,
      x0 = ((k - 1 : ℕ) : ℝ) * (b.members[i].L / A.npts) ∧
      BrokenBeam b i x0 0 (-1) y G ηl φl η φ ∧
      ∀ m (hm : m < b.members.length), ∀ x ∈ Icc 0 b.members[m].L,
        SupportSign j m (brokenLine i x0 ηl η m x) := by
  have hL := hb.pos _ (List.getElem_mem hi)
  have hnR : (A.npts : ℝ) ≠ 0 := by exact_mod_cast hn.ne'
  rcases hk with ⟨rfl, rfl⟩ | ⟨rfl, rfl⟩
  · refine ⟨by omega, by omega, ?_⟩
    obtain ⟨y, G, ηl, φl, η, φ, hB⟩ := hc.broken hb i hi 0 ⟨le_rfl, hL.le⟩ 0 (-1)
    exact ⟨y, G, ηl, φl, η, φ, 0, by simp, hB,
      C119_support_right_partial b [] hb hc i hi y G ηl φl η φ hB⟩
  · refine ⟨by omega, by omega, ?_⟩
    obtain ⟨y, G, ηl, φl, η, φ, hB⟩ := hc.broken hb i hi _ ⟨hL.le, le_rfl⟩ 0 (-1)
    exact ⟨y, G, ηl, φl, η, φ, _, by simp; field_simp, hB,
      C119_support_left_partial b [] hb hc i hi y G ηl φl η φ hB⟩

/-- **C120**, the worst arrangement: the moment at a support of a continuous beam under downward
loads is least with the maximum loads on the two adjacent spans and on every other span from
there. -/
theorem C120_worst (A : Analyser ℝ) (hsol : A.solve.Sound) (hn : 0 < A.npts) (b : BeamDef ℝ)
    (hb : b.Slender []) (hc : b.Continuous) (g q : List (Row ℝ)) (gmax gmin qmax qmin : ℝ)
    (hgg : gmin ≤ gmax) (hqq : qmin ≤ qmax) (hg : GravityRows b g) (hq : GravityRows b q)
    (j i : ℕ) (hi : i < b.members.length) (k : ℕ) (hk : AtSupport A.npts i k j)
    (LM LM' : List (Row ℝ)) (S : ℤ → Prop) (hA : Arranged (HogSpans j) g q gmax gmin qmax qmin LM)
    (hA' : Arranged S g q gmax gmin qmax qmin LM') (r r' : Result ℝ × List (MRes ℝ))
    (hr : runCase b A.stable A.solve A.npts LM = .ok r)
    (hr' : runCase b A.stable A.solve A.npts LM' = .ok r') (hir : i < r.2.length)
    (hir' : i < r'.2.length) : r.2[i].M k ≤ r'.2[i].M k := by
  obtain ⟨k0, k1, y, G, ηl, φl, η, φ, x0, hx0, hB, hs⟩ := support_broken hn hb hc hi hk
  rw [arranged_moment hsol hn hb hc hg hq hA hr i hi hir k k0 k1 hx0 hB,
    arranged_moment hsol hn hb hc hg hq hA' hr' i hi hir' k k0 k1 hx0 hB]
  have := (arranged_le (θ := brokenLine i x0 φl φ) (v := brokenLine i x0 ηl η) hb.pos hgg hqq hg hq
    hA hA').2 fun m hm =>
      ⟨fun hh x hx => (hs m hm x hx).hog.1 hh, fun hh x hx => (hs m hm x hx).hog.2 hh⟩
  linarith

/-- **C120**, hogging: where the arrangement just described is one of the patterns — at the end
supports, and over support `j` if `j ≤ 2` and there are at most two spans right of it — the least
moment that patterning reports is the least of all arrangements. -/
theorem C120_hogging_partial (A : Analyser ℝ) (hsol : A.solve.Sound) (hn : 0 < A.npts)
    (b : BeamDef ℝ) (hb : b.Slender []) (hc : b.Continuous) (g q : List (Row ℝ))
    (gmax gmin qmax qmin : ℝ) (hgg : gmin ≤ gmax) (hqq : qmin ≤ qmax) (hg : GravityRows b g)
    (hq : GravityRows b q) (rs : List (Result ℝ × List (MRes ℝ))) (env : Envelope ℝ)
    (h : patternAnalyze A b (some g) (some q) gmax gmin qmax qmin = .ok (rs, env)) (j i : ℕ)
    (hi : i < b.members.length) (k : ℕ) (hk : AtSupport A.npts i k j)
    (hj : j = 0 ∨ j = b.members.length ∨ j ≤ 2 ∧ b.members.length ≤ j + 2) :
    IsLeast (ArrangedMoments A b g q gmax gmin qmax qmin i k) (env.Mmin (i * (A.npts + 3) + k)) := by
  obtain ⟨k0, k1, y, G, ηl, φl, η, φ, x0, hx0, hB, hs⟩ := support_broken hn hb hc hi hk
  have hjN : j ≤ b.members.length := by rcases hk with hk | hk <;> omega
  obtain ⟨p, hp, hP⟩ : ∃ p < b.members.length + 2, ∀ m < b.members.length,
      (Designated b.members.length p ((m : ℤ) + 1) ↔ HogSpans j ((m : ℤ) + 1)) := by
    by_cases h0 : j = 0
    · refine ⟨b.members.length - 1, by omega, fun m hm => ?_⟩
      rw [designated_odd hm, Nat.even_iff]
      unfold HogSpans
      omega
    by_cases h1 : j = b.members.length
    · by_cases he : j % 2 = 0
      · refine ⟨b.members.length, by omega, fun m hm => ?_⟩
        rw [designated_even hm, Nat.even_iff]
        unfold HogSpans
        omega
      · refine ⟨b.members.length - 1, by omega, fun m hm => ?_⟩
        rw [designated_odd hm, Nat.even_iff]
        unfold HogSpans
        omega
    · refine ⟨j - 1, by omega, fun m hm => ?_⟩
      unfold Designated HogSpans
      rw [if_pos (by omega)]
      omega
  refine (pattern_extreme hsol hn hb hc hgg hqq hg hq h i hi k k0 k1 hx0 hB p hp).2 fun m hm => ?_
  rw [hP m hm]
  exact ⟨fun hh x hx => (hs m hm x hx).hog.1 hh, fun hh x hx => (hs m hm x hx).hog.2 hh⟩


/-! ### Where patterning falls short -/

/-- Equal spans of length 1 on simple supports. -/
def exSpans (N : ℕ) : BeamDef ℚ where
  members := List.replicate N (prism 1 1)
  restraints := (List.replicate (N + 1) [-1, 0]).flatten
  presc := List.replicate (2 * N + 2) none
  LM := []

/-- A uniform load on every span. -/
def exUdls (N : ℕ) (w : ℚ) : List (Row ℚ) := (List.range N).map fun i => ⟨(i : ℤ) + 1, 1, [w]⟩

/-- The equations of the four spans, solved for the six patterns and for the arrangement with the
live load on spans 1, 2 and 4. -/
def exFourA : Analyser ℚ := ⟨fun _ => true, listSolver ([
  [0, -92, 0, 16, 0, 28, 0, -16, 0, 36],
  [0, -16, 0, -24, 0, 0, 0, 24, 0, 16],
  [0, -36, 0, 16, 0, -28, 0, -16, 0, 92],
  [0, -120, 0, 72, 0, -56, 0, 40, 0, 8],
  [0, -8, 0, -40, 0, 56, 0, -72, 0, 120],
  [0, -96, 0, 24, 0, 0, 0, -24, 0, 96],
  [0, -90, 0, 12, 0, 42, 0, -68, 0, 118]].map fun l p => l.getD p 0), 1⟩

/-- The same for three spans, the five patterns and the live load on span 3. -/
def exThreeA : Analyser ℚ := ⟨fun _ => true, listSolver ([
  [0, -35, 0, 5, 0, 15, 0, -5],
  [0, 5, 0, -15, 0, -5, 0, 35],
  [0, -51, 0, 37, 0, -37, 0, 51],
  [0, 9, 0, -23, 0, 23, 0, -9],
  [0, -39, 0, 13, 0, -13, 0, 39],
  [0, -7, 0, 9, 0, -29, 0, 47]].map fun l p => l.getD p 0), 1⟩


/-- **C120** fails for hogging over an inner support: on four equal spans under uniform dead and
live load the arrangement with the live load on spans 1, 2 and 4 has a moment of -468 at support
1, where patterning reports a least moment of -456. -/
theorem C120_hogging_violation :
    exFourA.solve.Sound ∧ ∃ rs env LM r,
      patternAnalyze exFourA (exSpans 4) (some (exUdls 4 1344)) (some (exUdls 4 2688)) 1 1 1 0
        = .ok (rs, env) ∧
      Arranged (· ∈ [1, 2, 4]) (exUdls 4 1344) (exUdls 4 2688) 1 1 1 0 LM ∧
      runCase (exSpans 4) exFourA.stable exFourA.solve exFourA.npts LM = .ok r ∧
      AtSupport exFourA.npts 1 1 1 ∧ env.Mmin (1 * (exFourA.npts + 3) + 1) = -456 ∧
      ∃ h : 1 < r.2.length, r.2[1].M 1 = -468 := by
  obtain ⟨p, h1, h2⟩ := ok_of_map (x := patternAnalyze exFourA (exSpans 4) (some (exUdls 4 1344))
    (some (exUdls 4 2688)) 1 1 1 0) (f := fun p => p.2.Mmin (1 * (exFourA.npts + 3) + 1)) (y := -456)
    (by decide +kernel)
  obtain ⟨r, h3, h4⟩ := ok_of_map (x := runCase (exSpans 4) exFourA.stable exFourA.solve exFourA.npts
      (exUdls 4 1344 ++ [⟨1, 1, [2688]⟩, ⟨2, 1, [2688]⟩, ⟨3, 1, [0]⟩, ⟨4, 1, [2688]⟩]))
    (f := fun r => r.2[1]?.map fun m => m.M 1) (y := some (-468 : ℚ)) (by decide +kernel)
  refine ⟨listSolver_sound _, p.1, p.2, _, r, h1, ⟨_, _, rfl, ?_, ?_⟩, h3, Or.inl ⟨rfl, rfl⟩, h2, ?_⟩
  · simp [exUdls, List.range, List.range.loop, Factored, factorRow]
  · simp [exUdls, List.range, List.range.loop, Factored, factorRow]
  obtain ⟨m, hm, e⟩ := Option.map_eq_some_iff.1 h4
  obtain ⟨h, rfl⟩ := List.getElem?_eq_some_iff.1 hm
  exact ⟨h, e⟩

/-- **C120** fails for sagging over an inner support: on three equal spans the arrangement with the
live load on span 3 has a sagging moment of 12 at support 1, where patterning reports none. -/
theorem C120_uplift_violation :
    exThreeA.solve.Sound ∧ ∃ rs env LM r,
      patternAnalyze exThreeA (exSpans 3) (some (exUdls 3 120)) (some (exUdls 3 1440)) 1 1 1 0
        = .ok (rs, env) ∧
      Arranged (· = 3) (exUdls 3 120) (exUdls 3 1440) 1 1 1 0 LM ∧
      runCase (exSpans 3) exThreeA.stable exThreeA.solve exThreeA.npts LM = .ok r ∧
      AtSupport exThreeA.npts 1 1 1 ∧ env.Mmax (1 * (exThreeA.npts + 3) + 1) = 0 ∧
      ∃ h : 1 < r.2.length, r.2[1].M 1 = 12 := by
  obtain ⟨p, h1, h2⟩ := ok_of_map (x := patternAnalyze exThreeA (exSpans 3) (some (exUdls 3 120))
    (some (exUdls 3 1440)) 1 1 1 0) (f := fun p => p.2.Mmax (1 * (exThreeA.npts + 3) + 1)) (y := 0)
    (by decide +kernel)
  obtain ⟨r, h3, h4⟩ := ok_of_map (x := runCase (exSpans 3) exThreeA.stable exThreeA.solve
      exThreeA.npts (exUdls 3 120 ++ [⟨1, 1, [0]⟩, ⟨2, 1, [0]⟩, ⟨3, 1, [1440]⟩]))
    (f := fun r => r.2[1]?.map fun m => m.M 1) (y := some 12) (by decide +kernel)
  refine ⟨listSolver_sound _, p.1, p.2, _, r, h1, ⟨_, _, rfl, ?_, ?_⟩, h3, Or.inl ⟨rfl, rfl⟩, h2, ?_⟩
  · simp [exUdls, List.range, List.range.loop, Factored, factorRow]
  · simp [exUdls, List.range, List.range.loop, Factored, factorRow]
  obtain ⟨m, hm, e⟩ := Option.map_eq_some_iff.1 h4
  obtain ⟨h, rfl⟩ := List.getElem?_eq_some_iff.1 hm
  exact ⟨h, e⟩

/-! ### Concrete cases -/

/-- The envelope of analyses of one beam can always be formed. -/
theorem patternAnalyze_completes {A : Analyser ℝ} (hsol : A.solve.Sound) {b : BeamDef ℝ}
    {LMg LMq : Option (List (Row ℝ))} {gmax gmin qmax qmin : ℝ} {cs : List (LCase ℝ)}
    (h : loadPattern b.members.length LMg LMq gmax gmin qmax qmin = .ok cs) (hcs : cs ≠ [])
    (hr : ∀ c ∈ cs, ∃ r, runCase b A.stable A.solve A.npts c.loads = .ok r) :
    ∃ rs env, patternAnalyze A b LMg LMq gmax gmin qmax qmin = .ok (rs, env) := by
  obtain ⟨rs, hrs⟩ := mapE_of_ok (f := fun c : LCase ℝ => runCase b A.stable A.solve A.npts c.loads)
    cs hr
  obtain ⟨l1, l2⟩ := mapE_ok hrs
  have hall : ∀ r ∈ rs, (envOf r).npts = b.members.length * (A.npts + 3) ∧
      (envOf r).nsup = ((List.range (2 * b.members.length + 2)).filter fun i =>
        decide (b.restraints.getD i 0 < 0)).length := by
    intro r hm
    obtain ⟨i, hi, rfl⟩ := List.getElem_of_mem hm
    have hrun := l2 i (by omega) hi
    obtain ⟨hl, hst⟩ := runCase_stations_def hsol hrun
    constructor
    · change (concatResults rs[i].2 MRes.x).length = _
      simp only [concatResults, List.length_flatMap, MRes.list, List.length_map, List.length_range]
      rw [List.map_congr_left (g := fun _ => A.npts + 3) (fun m hm' => by
        obtain ⟨j, hj, rfl⟩ := List.getElem_of_mem hm'
        exact (hst j (by omega) hj).1)]
      simp [hl]
    · obtain ⟨ra, -⟩ := runCase_ok hrun
      obtain ⟨s, hs, hsa⟩ := BeamDef.analyze_ok ra
      obtain ⟨e1, -, -, e2, -⟩ := BeamDef.system_ok hs
      obtain ⟨-, e3, -⟩ := System.analyze_ok hsol hsa
      change rs[i].1.r.length = _
      have e1 : s.n = b.members.length := e1
      have e2 : ∀ i, s.r i = b.restraints.getD i 0 := e2
      rw [e3, System.reactions, List.length_map, System.N, e1]
      simp only [e2]
  cases rs with
  | nil => exact absurd (List.length_eq_zero_iff.1 l1.symm) hcs
  | cons r0 rs =>
    have : ∃ env, Envelope.new ((r0 :: rs).map envOf) = .ok env := by
      rw [List.map_cons, Envelope.new, if_pos]
      · exact ⟨_, rfl⟩
      · rw [List.all_eq_true]
        intro e he
        rw [← List.map_cons, List.mem_map] at he
        obtain ⟨r, hr', rfl⟩ := he
        have a := hall r hr'
        have c := hall r0 (by simp)
        simp [a.1, a.2, c.1, c.2]
    obtain ⟨env, henv⟩ := this
    exact ⟨r0 :: rs, env, by simp only [patternAnalyze, h, hrs, henv]⟩

theorem exMB_case (a d : ℝ) : ∃ r, runCase exMB.toDef exMBA.stable exMBA.solve exMBA.npts
    [⟨1, 1, [a]⟩, ⟨2, 2, [d, 1]⟩] = .ok r := by
  obtain ⟨LM, hLM⟩ : ∃ LM : List (Row ℝ), LM = [⟨1, 1, [a]⟩, ⟨2, 2, [d, 1]⟩] := ⟨_, rfl⟩
  rw [← hLM]
  set b : BeamDef ℝ := { exMB.toDef with LM := LM } with hd
  have hls : b.setLoads = .ok [⟨0, .udl a⟩, ⟨1, .pl d 1⟩] := by
    simp [hd, hLM, BeamDef.setLoads, parseLM, parseRow]
  obtain ⟨s, hs⟩ : ∃ s, b.system = .ok s := by
    rw [BeamDef.system, hls]
    simp only [hd, exMB, BeamB.toDef, zipMembers, mapE, List.zipIdx_cons, List.zipIdx_nil]
    simp [Member.refSum, Member.ref, Member.cnl, Load.getCnl, Member.spanK]
  obtain ⟨_, _, _, _, hpr, _, _⟩ := BeamDef.system_ok hs
  obtain ⟨res, hres⟩ := BeamDef.completes_any hs (exMB_nons (pr := exMB.toDef.presc) hs) (by
    have : ∀ i, b.presc.getD i none = none := exMB_presc
    simp only [System.validate, hpr, this]
    simp)
  obtain ⟨rs, hrs⟩ : ∃ rs, b.memberResults res exMBA.npts (fun _ => []) = .ok rs := by
    rw [BeamDef.memberResults, hls]
    simp only [hd, exMB, BeamB.toDef, zipMembers, mapE, List.zipIdx_cons, List.zipIdx_nil]
    simp [Member.values, Member.ctx, ownLoads, mapE, Member.cnl, Load.getCnl, List.filter]
  have h1 : ({ exMB.toDef with LM := LM } : BeamDef ℝ).analyze exMBA.stable exMBA.solve
      = .ok res := hres
  have h2 : ({ exMB.toDef with LM := LM } : BeamDef ℝ).memberResults res exMBA.npts
      (fun _ => []) = .ok rs := hrs
  exact ⟨(res, rs), by simp only [runCase, h1, h2]⟩

theorem exMB_gravity : GravityRows exMB.toDef [⟨1, 1, [4]⟩] ∧ GravityRows exMB.toDef [⟨2, 2, [5, 1]⟩] := by
  constructor
  · intro r hr
    simp only [List.mem_cons, List.not_mem_nil, or_false] at hr
    subst hr
    refine ⟨⟨0, .udl 4⟩, 0, by simp [parseRow], rfl, by simp [exMB, BeamB.toDef, zipMembers],
      trivial, trivial, ?_, ?_, rfl⟩
    · intro x _; simp [Load.intensity]
    · simp [Load.forces]
  · intro r hr
    simp only [List.mem_cons, List.not_mem_nil, or_false] at hr
    subst hr
    refine ⟨⟨1, .pl 5 1⟩, 1, by simp [parseRow], rfl, by simp [exMB, BeamB.toDef, zipMembers],
      ?_, trivial, ?_, ?_, rfl⟩
    · simp [Load.OnSpan, exMB, BeamB.toDef, zipMembers]
    · intro x _; simp [Load.intensity]
    · simp [Load.forces]

theorem exMB_pattern : ∃ rs env, patternAnalyze exMBA exMB.toDef (some [⟨1, 1, [4]⟩])
    (some [⟨2, 2, [5, 1]⟩]) (3 / 2) 1 2 0 = .ok (rs, env) := by
  have hN : 1 ≤ exMB.toDef.members.length := by simp [exMB, BeamB.toDef, zipMembers]
  have hf : ∀ γ w : ℝ, factorLM γ [⟨1, 1, [w]⟩] = .ok [⟨1, 1, [γ * w]⟩] := fun γ w => by
    simp [factorLM, factorRow]
  have hf' : ∀ γ w : ℝ, factorLM γ [⟨2, 2, [w, 1]⟩] = .ok [⟨2, 2, [γ * w, 1]⟩] := fun γ w => by
    simp [factorLM, factorRow]
  obtain ⟨cs, hcs, hl, -, hP⟩ := C42_patterns _ hN [⟨1, 1, [4]⟩] [⟨2, 2, [5, 1]⟩] _ _ _ _ (3 / 2 : ℝ) 1 2 0
    (hf _ _) (hf' _ _) (hf _ _) (hf' _ _)
  refine patternAnalyze_completes anySolver_sound hcs (by intro h; rw [h] at hl; simp at hl) ?_
  intro c hc
  obtain ⟨k, hk, rfl⟩ := List.getElem_of_mem hc
  obtain ⟨lg, lq, e, f1, f2⟩ := (hP k hk).1.arranged
  obtain ⟨r1, rfl, h1⟩ : ∃ r1, lg = [r1] ∧ Factored _ _ _ _ r1 := by
    cases f1 with
    | cons a b => cases b; exact ⟨_, rfl, a⟩
  obtain ⟨r2, rfl, h2⟩ : ∃ r2, lq = [r2] ∧ Factored _ _ _ _ r2 := by
    cases f2 with
    | cons a b => cases b; exact ⟨_, rfl, a⟩
  have g1 : ∃ a, r1 = ⟨1, 1, [a]⟩ := by
    have : ∃ γ : ℝ, factorRow γ ⟨1, 1, [4]⟩ = .ok r1 := by
      by_cases hS : Designated exMB.toDef.members.length k 1
      · exact ⟨_, h1.1 hS⟩
      · exact ⟨_, h1.2 hS⟩
    obtain ⟨γ, h⟩ := this
    simp [factorRow] at h
    exact ⟨_, h.symm⟩
  have g2 : ∃ a, r2 = ⟨2, 2, [a, 1]⟩ := by
    have : ∃ γ : ℝ, factorRow γ ⟨2, 2, [5, 1]⟩ = .ok r2 := by
      by_cases hS : Designated exMB.toDef.members.length k 2
      · exact ⟨_, h2.1 hS⟩
      · exact ⟨_, h2.2 hS⟩
    obtain ⟨γ, h⟩ := this
    simp [factorRow] at h
    exact ⟨_, h.symm⟩
  obtain ⟨a, rfl⟩ := g1
  obtain ⟨d, rfl⟩ := g2
  rw [e]
  exact exMB_case a d

/-- Two spans, the left end clamped, under a uniform dead and a concentrated live load: patterning
completes, and the extremes in the middle of the second span and the least moment over the inner
support are those of all arrangements. -/
example : ∃ rs env, patternAnalyze exMBA exMB.toDef (some [⟨1, 1, [4]⟩]) (some [⟨2, 2, [5, 1]⟩])
      (3 / 2) 1 2 0 = .ok (rs, env) ∧
    IsGreatest (ArrangedMoments exMBA exMB.toDef [⟨1, 1, [4]⟩] [⟨2, 2, [5, 1]⟩] (3 / 2) 1 2 0 1 6)
      (env.Mmax (1 * (10 + 3) + 6)) ∧
    IsLeast (ArrangedMoments exMBA exMB.toDef [⟨1, 1, [4]⟩] [⟨2, 2, [5, 1]⟩] (3 / 2) 1 2 0 1 1)
      (env.Mmin (1 * (10 + 3) + 1)) := by
  obtain ⟨rs, env, h⟩ := exMB_pattern
  have hj : 1 < exMB.toDef.members.length := by simp [exMB, BeamB.toDef, zipMembers]
  refine ⟨rs, env, h, (C120_sagging_partial exMBA anySolver_sound (by simp [exMBA]) exMB.toDef
    exMB_slender exMB_continuous _ _ _ _ _ _ (by norm_num) (by norm_num) exMB_gravity.1
    exMB_gravity.2 rs env h 1 hj 6 (by simp [exMBA]) (by simp [exMBA])).1,
    C120_hogging_partial exMBA anySolver_sound (by simp [exMBA]) exMB.toDef
    exMB_slender exMB_continuous _ _ _ _ _ _ (by norm_num) (by norm_num) exMB_gravity.1
    exMB_gravity.2 rs env h 1 1 hj 1 (Or.inl ⟨rfl, rfl⟩)
    (Or.inr (Or.inr ⟨by norm_num, by simp [exMB, BeamB.toDef, zipMembers]⟩))⟩

/-- The worst arrangement for the inner support of the two spans has the maximum loads on both. -/
example : ∃ LM LM' r r', Arranged (HogSpans 1) [⟨1, 1, [4]⟩] [⟨2, 2, [5, 1]⟩] (3 / 2) 1 2 (0 : ℝ) LM ∧
    Arranged (· = 2) [⟨1, 1, [4]⟩] [⟨2, 2, [5, 1]⟩] (3 / 2) 1 2 (0 : ℝ) LM' ∧
    runCase exMB.toDef exMBA.stable exMBA.solve exMBA.npts LM = .ok r ∧
    runCase exMB.toDef exMBA.stable exMBA.solve exMBA.npts LM' = .ok r' ∧
    ∃ (h : 1 < r.2.length) (h' : 1 < r'.2.length), r.2[1].M 1 ≤ r'.2[1].M 1 := by
  obtain ⟨r, hr⟩ := exMB_case (3 / 2 * 4) (2 * 5)
  obtain ⟨r', hr'⟩ := exMB_case (1 * 4) (2 * 5)
  have hj : 1 < exMB.toDef.members.length := by simp [exMB, BeamB.toDef, zipMembers]
  have h1 : Arranged (HogSpans 1) [⟨1, 1, [4]⟩] [⟨2, 2, [5, 1]⟩] (3 / 2) 1 2 (0 : ℝ)
      [⟨1, 1, [3 / 2 * 4]⟩, ⟨2, 2, [2 * 5, 1]⟩] :=
    ⟨[_], [_], rfl, by simp [Factored, factorRow, HogSpans], by simp [Factored, factorRow, HogSpans]⟩
  have h2 : Arranged (· = 2) [⟨1, 1, [4]⟩] [⟨2, 2, [5, 1]⟩] (3 / 2) 1 2 (0 : ℝ)
      [⟨1, 1, [1 * 4]⟩, ⟨2, 2, [2 * 5, 1]⟩] :=
    ⟨[_], [_], rfl, by simp [Factored, factorRow], by simp [Factored, factorRow]⟩
  have l1 : 1 < r.2.length := by rw [(runCase_stations_def anySolver_sound hr).1]; exact hj
  have l2 : 1 < r'.2.length := by rw [(runCase_stations_def anySolver_sound hr').1]; exact hj
  exact ⟨_, _, r, r', h1, h2, hr, hr', l1, l2, C120_worst exMBA anySolver_sound (by simp [exMBA])
    exMB.toDef exMB_slender exMB_continuous _ _ _ _ _ _ (by norm_num) (by norm_num) exMB_gravity.1
    exMB_gravity.2 1 1 hj 1 (Or.inl ⟨rfl, rfl⟩) _ _ _ h1 h2 r r' hr hr' l1 l2⟩

end PyCBA
