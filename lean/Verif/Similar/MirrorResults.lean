import Verif.Similar.Mirror
import Verif.Similar.UnitsResults

/-!
C105: the results along the members of a beam seen from the other side.
-/

set_option linter.unusedSectionVars false
set_option linter.unusedSimpArgs false

namespace PyCBA

open Matrix Finset

variable {K : Type*} [Field K] [LinearOrder K] [IsStrictOrderedRing K]

/-- Results along a member seen from the other side; `T` is the length of the beam.  Shears
only at the stations in `ok`. -/
structure MRes.IsMirror (T : K) (ok : ℕ → Prop) (r r' : MRes K) : Prop where
  n : r'.n = r.n
  x : ∀ k < r.n, r'.x (r.n - 1 - k) = T - r.x k
  M : ∀ k < r.n, r'.M (r.n - 1 - k) = r.M k
  V : ∀ k < r.n, ok k → r'.V (r.n - 1 - k) = -r.V k

theorem uniformGrid_getD (L : K) (npts j : ℕ) (hj : j ≤ npts) :
    (uniformGrid L npts).getD j 0 = L / npts * j := by
  unfold uniformGrid
  rw [List.getD_eq_getElem?_getD, List.getElem?_map, List.getElem?_range (by omega)]
  rfl

theorem padded_uniform_mirror (L : K) (npts : ℕ) (hn : 0 < npts) (k : ℕ) (hk : k < npts + 3) :
    padded (uniformGrid L npts) (npts + 2 - k) = L - padded (uniformGrid L npts) k := by
  have hl : (uniformGrid L npts).length = npts + 1 := by simp [uniformGrid]
  have hne : (npts : K) ≠ 0 := by exact_mod_cast hn.ne'
  unfold padded
  rw [hl]
  by_cases h0 : k = 0
  · subst h0
    rw [if_neg (by omega), if_neg (by omega), if_pos rfl, uniformGrid_getD _ _ _ (by omega),
      uniformGrid_getD _ _ _ (by omega)]
    simp
    field_simp
  by_cases h1 : k = npts + 2
  · subst h1
    rw [if_pos (by omega), if_neg (by omega), if_neg (by omega), uniformGrid_getD _ _ _ (by omega),
      uniformGrid_getD _ _ _ (by omega)]
    simp
    field_simp
    simp
  · rw [if_neg (by omega), if_pos (by omega), if_neg h0, if_pos (by omega),
      uniformGrid_getD _ _ _ (by omega), uniformGrid_getD _ _ _ (by omega)]
    have : npts + 2 - k - 1 = npts - (k - 1) := by omega
    rw [this, Nat.cast_sub (by omega)]
    field_simp

theorem sum_map_congr {α : Type*} (ls : List α) (F G : α → K) (h : ∀ a ∈ ls, F a = G a) :
    (ls.map F).sum = (ls.map G).sum := by
  rw [List.map_congr_left h]

theorem sum_map_neg {α : Type*} (ls : List α) (F G : α → K) (h : ∀ a ∈ ls, F a = -G a) :
    (ls.map F).sum = -(ls.map G).sum := by
  induction ls with
  | nil => simp
  | cons a ls ih =>
    simp only [List.map_cons, List.sum_cons, ih fun b hb => h b (List.mem_cons_of_mem _ hb),
      h a List.mem_cons_self]
    ring

/-- No point force at a station. -/
def NoForceAt (own : List (Load K)) (x : K) : Prop := ∀ P a, Load.pl P a ∈ own → a ≠ x

theorem MCtx.result_mirror (c c' : MCtx K) (hL : 0 < c.m.L) (hL' : c'.m.L = c.m.L)
    (ho : c'.own = c.own.map (Load.image c.m.L)) (hm : ∀ l ∈ c.own, c.m.Mirrors l)
    (hf : c'.f = vecMirror c.f) (hn : c'.npts = c.npts) (hp : 0 < c.npts) (hs : c.sp = [])
    (hs' : c'.sp = []) :
    MRes.IsMirror c.m.L (fun k => NoForceAt c.own (c.x k)) c.result c'.result := by
  have g : c.grid = uniformGrid c.m.L c.npts := by simp [MCtx.grid, hs, memberGrid, shearPairs]
  have g' : c'.grid = uniformGrid c.m.L c.npts := by
    simp [MCtx.grid, hs', memberGrid, shearPairs, hL', hn]
  have hN : c.n = c.npts + 3 := by simp [MCtx.n, g, uniformGrid]
  have hN' : c'.n = c.npts + 3 := by simp [MCtx.n, g', uniformGrid]
  have hx : ∀ k < c.n, c'.x (c.n - 1 - k) = c.m.L - c.x k := by
    intro k hk
    simp only [MCtx.x, g, g']
    have : c.n - 1 - k = c.npts + 2 - k := by omega
    rw [this]
    exact padded_uniform_mirror _ _ hp k (by omega)
  have he : ∀ k < c.n, (c'.IsEnd (c.n - 1 - k) ↔ c.IsEnd k) := by
    intro k hk
    unfold MCtx.IsEnd
    omega
  have f1 : c'.f 1 = -c.f 3 := by rw [hf]; simp [vecMirror, flipSign]
  have f3 : c'.f 3 = -c.f 1 := by rw [hf]; simp [vecMirror, flipSign]
  have hL0 := hL.ne'
  refine ⟨by simp [MCtx.result, hN, hN'], hx, fun k hk => ?_, fun k hk hok => ?_⟩
  · simp only [MCtx.result] at hk ⊢
    unfold MCtx.M
    simp only [he k hk, hx k hk, hL', ho, f1, f3]
    split_ifs
    · rfl
    · rw [List.map_map]
      rw [sum_map_congr c.own _ (fun l => l.ssM c.m.L (c.x k)) fun l hl => by
        simp only [Function.comp]
        exact Load.ssM_image l _ _ hL (hm l hl).1]
      simp only [mambStn]
      field_simp
      ring
  · simp only [MCtx.result] at hk ⊢
    unfold MCtx.V
    simp only [he k hk, hx k hk, hL', ho, f1, f3]
    split_ifs
    · simp
    · rw [List.map_map]
      rw [sum_map_neg c.own _ (fun l => l.ssV c.m.L (c.x k)) fun l hl => by
        simp only [Function.comp]
        exact Load.ssV_image l _ _ hL (hm l hl).1 fun P hP => hok P _ (hP ▸ hl) rfl]
      simp only [mambStn]
      field_simp
      ring

theorem sum_take_mirror (l l' : List K) (h : l' = l.reverse) (i : ℕ) (hi : i < l.length) :
    (l'.take (l.length - 1 - i)).sum = l.sum - (l.take i).sum - l[i] := by
  subst h
  rw [List.take_reverse, List.sum_reverse]
  have e : l.length - (l.length - 1 - i) = i + 1 := by omega
  rw [e]
  have := List.sum_take_add_sum_drop l (i + 1)
  have h2 : (l.take (i + 1)).sum = (l.take i).sum + l[i] := by
    exact List.sum_take_succ l i hi
  linear_combination this - h2

/-- **C105**: the results along the members of a beam seen from the other side, at the same
number of intervals (without shear points): stations, moments, and shears away from the point
forces.  Missing: rotations and deflections (see `C105_deflection_violation`) and the shears at
a station at a point force (see `C105_shear_violation`). -/
theorem C105_results_partial (b b' : BeamDef K) (h : b.IsMirror b') (hb : ∀ m ∈ b.members, m.Fits)
    (hl : b.LoadsMirror) (stable stable' : System K → Bool) (solve solve' : Solver K)
    (hs : solve.Sound) (hs' : solve'.Sound) (res res' : Result K)
    (ha : b.analyze stable solve = .ok res) (ha' : b'.analyze stable' solve' = .ok res')
    (hns : ∀ s, b.system = .ok s → s.Nonsingular) (npts : ℕ) (hn : 0 < npts)
    (rs : List (MRes K)) (hr : b.memberResults res npts (fun _ => []) = .ok rs) :
    ∃ rs', b'.memberResults res' npts (fun _ => []) = .ok rs' ∧
      rs.length = b.members.length ∧ rs'.length = b.members.length ∧
      ∀ i (hi : i < rs.length) (hi' : b.members.length - 1 - i < rs'.length)
        (ls : List (SpanLoad K)), b.setLoads = .ok ls →
        MRes.IsMirror (b.members.map Member.L).sum
          (fun k => NoForceAt (ownLoads i ls) (rs[i].x k - ((b.members.take i).map Member.L).sum))
          rs[i] rs'[b.members.length - 1 - i] := by
  obtain ⟨_, _, hfm⟩ := C105_analysis b b' h hb hl stable stable' solve solve' hs hs' res res' ha ha' hns
  set n := b.members.length with hnn
  have hlen : b'.members.length = n := h.len
  unfold BeamDef.memberResults at hr ⊢
  cases hls : b.setLoads with
  | error e => simp [hls] at hr
  | ok ls =>
    rw [BeamDef.setLoads_mirror b b' h ls hls hl]
    simp only [hls] at hr ⊢
    obtain ⟨r1, r2⟩ := mapE_ok hr
    have r1' : rs.length = n := by simpa using r1
    -- the members one by one
    have key : ∀ i (hi : i < n) (hi2 : i < rs.length) (hi' : n - 1 - i < b'.members.length), ∃ r',
        (match b'.members[n - 1 - i].values (n - 1 - i) (ls.map (SpanLoad.image n b.len))
          (res'.fmbr (n - 1 - i)) (elemVec res'.d (n - 1 - i)) npts [] with
        | .error e => (.error e : Except PyErr (MRes K))
        | .ok r => .ok
          { r with x := fun k => r.x k + ((b'.members.take (n - 1 - i)).map Member.L).sum })
          = .ok r' ∧
        MRes.IsMirror (b.members.map Member.L).sum
          (fun k => NoForceAt (ownLoads i ls) (rs[i].x k - ((b.members.take i).map Member.L).sum))
          rs[i] r' := by
      intro i hi hi2 hi'
      have hri := r2 i (by simpa using hi) hi2
      simp only [List.getElem_zipIdx, zero_add] at hri
      have hfit := hb _ (List.getElem_mem hi)
      have hmir := h.members i hi hi'
      have ho : ownLoads (n - 1 - i) (ls.map (SpanLoad.image n b.len))
          = (ownLoads i ls).map (Load.image b.members[i].L) := by
        unfold ownLoads
        rw [List.filter_map, List.map_map, List.map_map]
        have e : ls.filter ((fun l : SpanLoad K => decide (l.iSpan = ((n - 1 - i : ℕ) : ℤ))) ∘
            SpanLoad.image n b.len) = ls.filter fun l => decide (l.iSpan = (i : ℤ)) := by
          apply List.filter_congr
          intro sl _
          have : ((n - 1 - i : ℕ) : ℤ) = (n : ℤ) - 1 - i := by omega
          simp only [Function.comp, SpanLoad.image, this, sub_right_inj]
        rw [e]
        apply List.map_congr_left
        intro sl hsl
        have := (List.mem_filter.1 hsl).2
        simp only [decide_eq_true_eq] at this
        simp only [Function.comp, SpanLoad.image, this, b.len_get i hi]
      have hown : ∀ ld ∈ ownLoads i ls, b.members[i].Mirrors ld := by
        intro ld hld
        obtain ⟨sl, hsl, rfl⟩ := List.mem_map.1 hld
        obtain ⟨hsl, hsi⟩ := List.mem_filter.1 hsl
        obtain ⟨j, hj, j1, j2⟩ := hl ls hls sl hsl
        simp only [decide_eq_true_eq] at hsi
        have : j = i := by rw [j1] at hsi; exact_mod_cast hsi
        subst this
        exact j2
      have hfv : res'.fmbr (n - 1 - i) = vecMirror (res.fmbr i) := by
        obtain ⟨q0, q1, q2, q3⟩ := hfm i hi
        ext a
        fin_cases a <;> simp [vecMirror, flipSign, q0, q1, q2, q3]
      have hTake : ((b'.members.take (n - 1 - i)).map Member.L).sum
          = (b.members.map Member.L).sum - ((b.members.take i).map Member.L).sum
            - b.members[i].L := by
        have hrev : b'.members.map Member.L = (b.members.map Member.L).reverse := by
          apply List.ext_getElem
          · simp [hlen, ← hnn]
          · intro j h1 h2
            have hj : j < n := by simpa [hlen] using h1
            simp only [List.getElem_map, List.getElem_reverse, List.length_map, ← hnn]
            have hm2 := h.members (n - 1 - j) (by omega) (by omega)
            have e : n - 1 - (n - 1 - j) = j := by omega
            simp only [← hnn, e] at hm2
            exact hm2.L
        have := sum_take_mirror _ _ hrev i (by simpa using hi)
        simp only [List.length_map, ← hnn, List.getElem_map] at this
        rw [List.map_take, List.map_take, this]
      unfold Member.values Member.ctx at hri ⊢
      rw [ho, mapE_map_arg, mapE_map_res CNL.mirror b.members[i].cnl _ _ fun ld hld =>
        Member.cnl_mirror _ _ hmir hfit ld (hown ld hld)]
      cases hc : mapE b.members[i].cnl (ownLoads i ls) with
      | error e => simp [hc] at hri
      | ok cn =>
        simp only [hc, Except.map] at hri ⊢
        refine ⟨_, rfl, ?_⟩
        rw [← Except.ok.inj hri]
        set c : MCtx K := ⟨b.members[i], ownLoads i ls, res.fmbr i, elemVec res.d i, npts, [],
          (cn.map CNL.Ma).sum, (cn.map CNL.Mb).sum⟩ with hcd
        set c' : MCtx K := ⟨b'.members[n - 1 - i], (ownLoads i ls).map (Load.image b.members[i].L),
          res'.fmbr (n - 1 - i), elemVec res'.d (n - 1 - i), npts, [],
          ((cn.map CNL.mirror).map CNL.Ma).sum, ((cn.map CNL.mirror).map CNL.Mb).sum⟩ with hcd'
        obtain ⟨g1, g2, g3, g4⟩ := MCtx.result_mirror c c' hfit.1 hmir.L rfl hown hfv rfl hn rfl rfl
        refine ⟨g1, fun k hk => ?_, g3, fun k hk hok => g4 k hk ?_⟩
        · have := g2 k hk
          simp only [this, hTake]
          simp only [hcd, MCtx.result]
          ring
        · simpa [MCtx.result] using hok
    obtain ⟨rs', hrs'⟩ := mapE_of_ok (f := fun mi : Member K × ℕ =>
      match mi.1.values mi.2 (ls.map (SpanLoad.image n b.len)) (res'.fmbr mi.2)
          (elemVec res'.d mi.2) npts [] with
      | .error e => (.error e : Except PyErr (MRes K))
      | .ok r => .ok
        { r with x := fun k => r.x k + ((b'.members.take mi.2).map Member.L).sum })
      b'.members.zipIdx (by
        intro mi hmi
        obtain ⟨_, h2, h3⟩ := List.mem_zipIdx hmi
        simp only [zero_add, Nat.sub_zero] at h2 h3
        obtain ⟨c, c1, _⟩ := key (n - 1 - mi.2) (by omega) (by omega) (by omega)
        have e : n - 1 - (n - 1 - mi.2) = mi.2 := by omega
        simp only [e] at c1
        exact ⟨c, by rw [h3]; exact c1⟩)
    obtain ⟨q1, q2⟩ := mapE_ok hrs'
    have q1' : rs'.length = n := by simpa [hlen] using q1
    refine ⟨rs', hrs', r1', q1', fun i hi hi' ls2 hls2 => ?_⟩
    cases hls2
    obtain ⟨r', k1, k2⟩ := key i (by omega) hi (by omega)
    have := q2 (n - 1 - i) (by simp; omega) hi'
    simp only [List.getElem_zipIdx, zero_add] at this
    rw [k1] at this
    rw [← Except.ok.inj this]
    exact k2

/-! ### Witnesses -/

/-- Two spans, clamped at the left, with a settlement and several kinds of load. -/
def exLeft : BeamDef ℚ :=
  ⟨[⟨.const 6, 2, .FF, none⟩, ⟨.const 6, 1, .FF, none⟩], [-1, -1, -1, 0, -1, 0],
    [none, none, some (1 / 10), none, none, none],
    [⟨1, 2, [16, 1 / 2]⟩, ⟨2, 5, [60, 120]⟩, ⟨2, 4, [5, 1 / 4]⟩]⟩

/-- The same seen from the other side. -/
def exRight : BeamDef ℚ :=
  ⟨[⟨.const 6, 1, .FF, none⟩, ⟨.const 6, 2, .FF, none⟩], [-1, 0, -1, 0, -1, -1],
    [none, none, some (1 / 10), none, none, none],
    [⟨2, 2, [16, 3 / 2]⟩, ⟨1, 5, [120, 60, 0, 1]⟩, ⟨1, 4, [-5, 3 / 4]⟩]⟩

theorem exLeft_mirror : exLeft.IsMirror exRight := by
  refine ⟨rfl, ?_, ?_, ?_, ?_⟩
  · intro i hi hi'
    have : i < 2 := hi
    interval_cases i
    · exact ⟨rfl, rfl, .const 6, .none⟩
    · exact ⟨rfl, rfl, .const 6, .none⟩
  · intro p hp
    have : p < 6 := hp
    interval_cases p <;> rfl
  · intro p hp
    have : p < 6 := hp
    interval_cases p <;> simp [exLeft, exRight, flipDof, flipSign]
  · simp [exLeft, exRight, Row.mirror, BeamDef.len]
    norm_num

theorem exLeft_fits : ∀ m ∈ exLeft.members, m.Fits := by
  simp [exLeft, Member.Fits, breaks, Rigidity.bps]

theorem exLeft_loads : exLeft.LoadsMirror := by
  intro ls hls sl hsl
  have : exLeft.setLoads = .ok [⟨0, .pl 16 (1 / 2)⟩, ⟨1, .trapez 60 120 0 none⟩, ⟨1, .ml 5 (1 / 4)⟩] := by
    decide +kernel
  rw [this] at hls
  cases hls
  simp only [List.mem_cons, List.not_mem_nil, or_false] at hsl
  rcases hsl with rfl | rfl | rfl
  · exact ⟨0, by simp [exLeft], rfl, by simp [exLeft, Member.Mirrors, Load.OnSpan]; norm_num⟩
  · exact ⟨1, by simp [exLeft], rfl, by simp [exLeft, Member.Mirrors, Load.OnSpan]⟩
  · exact ⟨1, by simp [exLeft], rfl, by simp [exLeft, Member.Mirrors, Load.OnSpan]; norm_num⟩

theorem exLeft_nonsingular (s : System ℚ) (hs : exLeft.system = .ok s) : s.Nonsingular :=
  C77_adequate_supports exLeft (by simp [exLeft, Member.Good, Rigidity.Good]) s hs 0 1
    (by simp) (by simp [exLeft]) (by simp [exLeft]) (Or.inl (by simp [exLeft]))

/-- C105 at those beams: the moment at the middle of the right span from the one side is the
moment at the middle of the left span from the other. -/
example : ∃ (res res' : Result ℚ) (q r r' q' : MRes ℚ),
    exLeft.memberResults res 2 (fun _ => []) = .ok [q, r] ∧
    exRight.memberResults res' 2 (fun _ => []) = .ok [r', q'] ∧
    res'.d 1 = -res.d 5 ∧ res.d 5 = 631 / 2400 ∧
    r'.M 2 = r.M 2 ∧ r.M 2 = 4651 / 800 ∧ r'.V 2 = -r.V 2 ∧ r'.x 2 = 3 - r.x 2 := by
  obtain ⟨p, h1, h2⟩ := ok_of_map
    (x := exResults exLeft [0, 0, 1 / 10, -463 / 1600, 0, 631 / 2400] 2)
    (f := fun p => (p.2.map (MRes.M · 2), p.2.map MRes.n, p.1.d 5))
    (y := ([211 / 1600, 4651 / 800], [5, 5], 631 / 2400)) (by decide +kernel)
  obtain ⟨p', h1', -⟩ := ok_of_map
    (x := exResults exRight [0, -631 / 2400, 1 / 10, 463 / 1600, 0, 0] 2)
    (f := fun p => p.2.length) (y := 2) (by decide +kernel)
  obtain ⟨a1, a2⟩ := exResults_ok h1
  obtain ⟨b1, b2⟩ := exResults_ok h1'
  obtain ⟨g, rs⟩ := p
  simp only [Prod.mk.injEq] at h2
  obtain ⟨c1, c2, c3⟩ := h2
  obtain ⟨d1, _⟩ := C105_analysis exLeft exRight exLeft_mirror exLeft_fits exLeft_loads _ _ _ _
    (trySolver_sound _) (trySolver_sound _) g p'.1 a1 b1 exLeft_nonsingular
  obtain ⟨rs', e1, e2, e3, e4⟩ := C105_results_partial exLeft exRight exLeft_mirror exLeft_fits
    exLeft_loads _ _ _ _ (trySolver_sound _) (trySolver_sound _) g p'.1 a1 b1 exLeft_nonsingular 2
    (by norm_num) rs a2
  obtain ⟨q, r, rfl⟩ := List.length_eq_two.1 (show rs.length = 2 from e2)
  obtain ⟨r', q', rfl⟩ := List.length_eq_two.1 (show rs'.length = 2 from e3)
  have hls : exLeft.setLoads
      = .ok [⟨0, .pl 16 (1 / 2)⟩, ⟨1, .trapez 60 120 0 none⟩, ⟨1, .ml 5 (1 / 4)⟩] := by
    decide +kernel
  obtain ⟨f1, f2, f3, f4⟩ := e4 1 (by simp) (by simp [exLeft]) _ hls
  simp only [List.map_cons, List.map_nil, List.cons.injEq, and_true, List.getElem_cons_succ,
    List.getElem_cons_zero] at c1 c2 f1 f2 f3 f4
  have hn : r.n = 5 := c2.2
  simp only [hn] at f2 f3 f4
  refine ⟨g, p'.1, q, r, r', q', a2, e1, (d1 2 (by simp [exLeft])).2, c3, f3 2 (by norm_num), c1.2,
    f4 2 (by norm_num) (by simp [NoForceAt, ownLoads]), ?_⟩
  have := f2 2 (by norm_num)
  simpa [exLeft, show (2 : ℚ) + 1 = 3 by norm_num] using this

/-- **C105**, rotations and deflections: a span that is its own mirror image under a load that
is its own mirror image is reported with different deflections at its two supports, and with
rotations there that are not opposite, because both are summed up from the left end. -/
theorem C105_deflection_violation : ∃ (b : BeamDef ℚ) (solve : Solver ℚ) (res : Result ℚ)
    (r : MRes ℚ), b.IsMirror b ∧ (∀ m ∈ b.members, m.Fits) ∧ b.LoadsMirror ∧ solve.Sound ∧
    (∀ s, b.system = .ok s → s.Nonsingular) ∧ b.analyze (fun _ => true) solve = .ok res ∧
    b.memberResults res 2 (fun _ => []) = .ok [r] ∧ r.n = 5 ∧
    r.x 3 = 2 - r.x 1 ∧ r.D 3 ≠ r.D 1 ∧ r.R 3 ≠ -r.R 1 := by
  obtain ⟨p, h1, h2⟩ := ok_of_map (x := exResults exSpanQ [0, -1 / 6, 0, 1 / 6] 2)
    (f := fun p => (p.2.length, p.2.map (fun r => (r.n, [r.x 1, r.x 3, r.D 1, r.D 3, r.R 1, r.R 3]))))
    (y := (1, [(5, [0, 2, 0, -1 / 12, -1 / 6, 1 / 12])]))
    (by decide +kernel)
  obtain ⟨a1, a2⟩ := exResults_ok h1
  obtain ⟨q, rs⟩ := p
  simp only [Prod.mk.injEq] at h2 a1 a2
  obtain ⟨c1, c2⟩ := h2
  obtain ⟨r, rfl⟩ := List.length_eq_one_iff.1 c1
  simp only [List.map_cons, List.map_nil, List.cons.injEq, and_true, Prod.mk.injEq] at c2
  obtain ⟨e1, e2, e3, e4, e5, e6, e7⟩ := c2
  refine ⟨exSpanQ, _, q, r, ?_, ?_, ?_, trySolver_sound _, exSpanQ_nonsingular, a1, a2, e1,
    by rw [e2, e3]; norm_num, by rw [e4, e5]; norm_num, by rw [e6, e7]; norm_num⟩
  · refine ⟨rfl, ?_, ?_, ?_, ?_⟩
    · intro i hi hi'
      have : i < 1 := hi
      interval_cases i
      exact ⟨rfl, rfl, .const 6, .none⟩
    · intro p hp
      have : p < 4 := hp
      interval_cases p <;> rfl
    · intro p hp
      have : p < 4 := hp
      interval_cases p <;> simp [exSpanQ, flipDof, flipSign]
    · simp [exSpanQ, Row.mirror, BeamDef.len]
  · simp [exSpanQ, Member.Fits, breaks, Rigidity.bps]
  · intro ls hls sl hsl
    have : exSpanQ.setLoads = .ok [⟨0, .udl 3⟩] := by decide +kernel
    rw [this] at hls
    cases hls
    simp only [List.mem_cons, List.not_mem_nil, or_false] at hsl
    subst hsl
    exact ⟨0, by simp [exSpanQ], rfl, by simp [exSpanQ, Member.Mirrors, Load.OnSpan]⟩

/-- A span of 2 with a force in the middle. -/
def exMid : BeamDef ℚ :=
  ⟨[⟨.const 6, 2, .FF, none⟩], [-1, 0, -1, 0], [none, none, none, none], [⟨1, 2, [12, 1]⟩]⟩

/-- **C105**, shears: at a station exactly at a point force the shear just left of the force is
reported, so a span that is its own mirror image under a force at midspan is reported with a
non-zero shear at midspan. -/
theorem C105_shear_violation : ∃ (b : BeamDef ℚ) (solve : Solver ℚ) (res : Result ℚ)
    (r : MRes ℚ), b.IsMirror b ∧ (∀ m ∈ b.members, m.Fits) ∧ b.LoadsMirror ∧ solve.Sound ∧
    (∀ s, b.system = .ok s → s.Nonsingular) ∧ b.analyze (fun _ => true) solve = .ok res ∧
    b.memberResults res 2 (fun _ => []) = .ok [r] ∧ r.n = 5 ∧
    r.x 2 = 2 - r.x 2 ∧ r.V 2 ≠ -r.V 2 := by
  obtain ⟨p, h1, h2⟩ := ok_of_map (x := exResults exMid [0, -1 / 2, 0, 1 / 2] 2)
    (f := fun p => (p.2.length, p.2.map (fun r => (r.n, r.x 2, r.V 2))))
    (y := (1, [(5, 1, 6)]))
    (by decide +kernel)
  obtain ⟨a1, a2⟩ := exResults_ok h1
  obtain ⟨q, rs⟩ := p
  simp only [Prod.mk.injEq] at h2 a1 a2
  obtain ⟨c1, c2⟩ := h2
  obtain ⟨r, rfl⟩ := List.length_eq_one_iff.1 c1
  simp only [List.map_cons, List.map_nil, List.cons.injEq, and_true, Prod.mk.injEq] at c2
  obtain ⟨e1, e2, e3⟩ := c2
  refine ⟨exMid, _, q, r, ?_, ?_, ?_, trySolver_sound _, ?_, a1, a2, e1,
    by rw [e2]; norm_num, by rw [e3]; norm_num⟩
  · refine ⟨rfl, ?_, ?_, ?_, ?_⟩
    · intro i hi hi'
      have : i < 1 := hi
      interval_cases i
      exact ⟨rfl, rfl, .const 6, .none⟩
    · intro p hp
      have : p < 4 := hp
      interval_cases p <;> rfl
    · intro p hp
      have : p < 4 := hp
      interval_cases p <;> simp [exMid, flipDof, flipSign]
    · simp [exMid, Row.mirror, BeamDef.len]
      norm_num
  · simp [exMid, Member.Fits, breaks, Rigidity.bps]
  · intro ls hls sl hsl
    have : exMid.setLoads = .ok [⟨0, .pl 12 1⟩] := by decide +kernel
    rw [this] at hls
    cases hls
    simp only [List.mem_cons, List.not_mem_nil, or_false] at hsl
    subst hsl
    exact ⟨0, by simp [exMid], rfl, by simp [exMid, Member.Mirrors, Load.OnSpan]⟩
  · intro s hs
    exact C77_adequate_supports exMid (by simp [exMid, Member.Good, Rigidity.Good]) s hs 0 1
      (by simp) (by simp [exMid]) (by simp [exMid]) (Or.inl (by simp [exMid]))

end PyCBA
