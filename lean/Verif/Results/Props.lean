import Verif.Results.Model
import Verif.Analysis.Linear

set_option linter.unusedSectionVars false
set_option linter.unusedSimpArgs false

/-!
Properties of the results along the beam: C49, C51, C52, C79.
-/

namespace PyCBA

open Matrix

variable {K : Type*} [Field K] [LinearOrder K] [IsStrictOrderedRing K]

/-! ### The evaluation grid -/

theorem mem_uniformGrid_bounds {L : K} (hL : 0 < L) {npts : ℕ} (hn : 0 < npts) :
    (∀ a ∈ uniformGrid L npts, 0 ≤ a ∧ a ≤ L) ∧ 0 ∈ uniformGrid L npts ∧
      L ∈ uniformGrid L npts ∧ (uniformGrid L npts).Pairwise (· ≤ ·) := by
  have hn' : (0 : K) < npts := by exact_mod_cast hn
  have hd : 0 < L / npts := div_pos hL hn'
  refine ⟨?_, ?_, ?_, ?_⟩
  · intro a ha
    simp only [uniformGrid, List.mem_map, List.mem_range] at ha
    obtain ⟨k, hk, rfl⟩ := ha
    refine ⟨mul_nonneg hd.le (Nat.cast_nonneg k), ?_⟩
    have hk' : (k : K) ≤ npts := by exact_mod_cast Nat.lt_succ_iff.1 hk
    calc L / npts * k ≤ L / npts * npts := mul_le_mul_of_nonneg_left hk' hd.le
      _ = L := by field_simp
  · simp only [uniformGrid, List.mem_map, List.mem_range]
    exact ⟨0, by omega, by simp⟩
  · simp only [uniformGrid, List.mem_map, List.mem_range]
    exact ⟨npts, by omega, by field_simp⟩
  · simp only [uniformGrid]
    rw [List.pairwise_map]
    refine (List.pairwise_lt_range (n := npts + 1)).imp ?_
    intro a b hab
    exact mul_le_mul_of_nonneg_left (by exact_mod_cast hab.le) hd.le

theorem mem_shearPairs {L : K} (hL : 0 < L) (sp : List K) :
    ∀ a ∈ shearPairs L sp, 0 ≤ a ∧ a ≤ L := by
  intro a ha
  simp only [shearPairs, List.mem_flatMap, List.mem_filter, decide_eq_true_eq] at ha
  obtain ⟨xs, ⟨_, h1, h2⟩, h3⟩ := ha
  have h0 : 0 < shearOffset L := by unfold shearOffset; positivity
  simp only [List.mem_cons, List.not_mem_nil, or_false] at h3
  rcases h3 with rfl | rfl <;> constructor <;> linarith

/-- The shear points of a member that get a pair of stations. -/
def insidePoints (L : K) (sp : List K) : List K :=
  sp.filter fun xs => 1 / 10 ^ 9 * L < xs ∧ xs < L - 1 / 10 ^ 9 * L

theorem shearPairs_length (L : K) (sp : List K) :
    (shearPairs L sp).length = 2 * (insidePoints L sp).length := by
  simp only [shearPairs, insidePoints, shearOffset, List.length_flatMap, List.length_cons,
    List.length_nil, List.map_const', List.sum_replicate, smul_eq_mul]
  rw [Nat.mul_comm]
  congr!

theorem memberGrid_spec {L : K} (hL : 0 < L) {npts : ℕ} (hn : 0 < npts) (sp : List K) :
    (∀ a ∈ (memberGrid L npts sp).1, 0 ≤ a ∧ a ≤ L) ∧ 0 ∈ (memberGrid L npts sp).1 ∧
      L ∈ (memberGrid L npts sp).1 ∧ (memberGrid L npts sp).1.Pairwise (· ≤ ·) ∧
      (memberGrid L npts sp).1.length = npts + 1 + 2 * (insidePoints L sp).length := by
  obtain ⟨h1, h2, h3, h4⟩ := mem_uniformGrid_bounds hL hn
  have h5 := mem_shearPairs hL sp
  have h6 := shearPairs_length L sp
  unfold memberGrid
  split
  · rename_i h
    rw [h] at h6
    refine ⟨h1, h2, h3, h4, ?_⟩
    simp only [List.length_nil] at h6
    simp only [uniformGrid, List.length_map, List.length_range]
    omega
  · rename_i p ps h
    rw [h] at h5 h6
    refine ⟨?_, ?_, ?_, ?_, ?_⟩
    · intro a ha
      rw [List.mem_mergeSort] at ha
      rcases List.mem_append.1 ha with ha | ha
      · exact h1 a ha
      · exact h5 a ha
    · rw [List.mem_mergeSort]
      exact List.mem_append_left _ h2
    · rw [List.mem_mergeSort]
      exact List.mem_append_left _ h3
    · have := List.pairwise_mergeSort (le := fun a b : K => decide (a ≤ b))
        (fun a b c hab hbc => by
          simp only [decide_eq_true_eq] at *
          exact hab.trans hbc)
        (fun a b => by simpa using le_total a b) (uniformGrid L npts ++ p :: ps)
      exact this.imp fun hab => by simpa using hab
    · rw [List.length_mergeSort, List.length_append, h6]
      simp [uniformGrid]

theorem getD_zero_of_min {l : List K} (h : l.Pairwise (· ≤ ·)) (h0 : ∀ a ∈ l, 0 ≤ a) (hm : 0 ∈ l) :
    l.getD 0 0 = 0 := by
  cases l with
  | nil => simp at hm
  | cons a t =>
    simp only [List.getD_cons_zero]
    refine le_antisymm ?_ (h0 a (by simp))
    rcases List.mem_cons.1 hm with h' | h'
    · rw [← h']
    · exact (List.pairwise_cons.1 h).1 _ h'

theorem getD_mono {l : List K} (h : l.Pairwise (· ≤ ·)) {i j : ℕ} (hij : i ≤ j) (hj : j < l.length) :
    l.getD i 0 ≤ l.getD j 0 := by
  rw [List.getD_eq_getElem?_getD, List.getD_eq_getElem?_getD,
    List.getElem?_eq_getElem (by omega), List.getElem?_eq_getElem hj, Option.getD_some,
    Option.getD_some]
  rcases Nat.lt_or_ge i j with hlt | hge
  · exact (List.pairwise_iff_getElem.1 h) i j (by omega) hj hlt
  · have : i = j := by omega
    subst this
    exact le_rfl

theorem getD_last_of_max {l : List K} {L : K} (h : l.Pairwise (· ≤ ·)) (h0 : ∀ a ∈ l, a ≤ L)
    (hm : L ∈ l) : l.getD (l.length - 1) 0 = L := by
  obtain ⟨j, hj, hL⟩ := List.getElem_of_mem hm
  have h1 := getD_mono h (i := j) (j := l.length - 1) (by omega) (by omega)
  have h2 : l.getD j 0 = L := by
    rw [List.getD_eq_getElem?_getD, List.getElem?_eq_getElem hj, Option.getD_some, hL]
  refine le_antisymm ?_ (h2 ▸ h1)
  apply h0
  rw [List.getD_eq_getElem?_getD, List.getElem?_eq_getElem (by omega), Option.getD_some]
  exact List.getElem_mem _

/-- The padded stations of a sorted grid from `0` to `L`. -/
theorem padded_spec {L : K} {g : List K} (hs : g.Pairwise (· ≤ ·)) (hb : ∀ a ∈ g, 0 ≤ a ∧ a ≤ L)
    (h0 : 0 ∈ g) (hL : L ∈ g) :
    padded g 0 = 0 ∧ padded g 1 = 0 ∧ padded g g.length = L ∧ padded g (g.length + 1) = L ∧
      (∀ i j, i ≤ j → j < g.length + 2 → padded g i ≤ padded g j) := by
  have hlen : 0 < g.length := List.length_pos_of_mem h0
  have e0 := getD_zero_of_min hs (fun a ha => (hb a ha).1) h0
  have eL := getD_last_of_max hs (fun a ha => (hb a ha).2) hL
  have p0 : padded g 0 = 0 := by simp only [padded, if_true]; exact e0
  have p1 : padded g 1 = 0 := by
    simp only [padded, one_ne_zero, if_false]
    rw [if_pos (by omega)]
    exact e0
  have pl : padded g g.length = L := by
    simp only [padded]
    rw [if_neg (by omega), if_pos (by omega)]
    exact eL
  have pl1 : padded g (g.length + 1) = L := by
    simp only [padded]
    rw [if_neg (by omega), if_neg (by omega)]
    exact eL
  refine ⟨p0, p1, pl, pl1, ?_⟩
  intro i j hij hj
  have hget : ∀ k, 1 ≤ k → k ≤ g.length → padded g k = g.getD (k - 1) 0 := by
    intro k hk hk'
    simp only [padded]
    rw [if_neg (by omega), if_pos (by omega)]
  have hmem : ∀ k, 1 ≤ k → k ≤ g.length → padded g k ∈ g := by
    intro k hk hk'
    rw [hget k hk hk', List.getD_eq_getElem?_getD, List.getElem?_eq_getElem (by omega),
      Option.getD_some]
    exact List.getElem_mem _
  have hL0 : 0 ≤ L := (hb L hL).1
  rcases Nat.eq_zero_or_pos i with rfl | hi
  · rw [p0]
    rcases Nat.eq_zero_or_pos j with rfl | hj0
    · rw [p0]
    · rcases Nat.lt_or_ge g.length j with h | h
      · have : j = g.length + 1 := by omega
        rw [this, pl1]
        exact hL0
      · exact (hb _ (hmem j hj0 h)).1
  · rcases Nat.lt_or_ge g.length j with h | h
    · have : j = g.length + 1 := by omega
      rw [this, pl1]
      rcases Nat.lt_or_ge g.length i with h' | h'
      · have : i = g.length + 1 := by omega
        rw [this, pl1]
      · exact (hb _ (hmem i hi h')).2
    · rw [hget i hi (by omega), hget j (by omega) h]
      exact getD_mono hs (by omega) (by omega)

/-! ### From a beam to the contexts of its members -/

theorem BeamDef.memberResults_ok {b : BeamDef K} {res : Result K} {npts : ℕ} {sp : ℕ → List K}
    {rs : List (MRes K)} (h : b.memberResults res npts sp = .ok rs) :
    rs.length = b.members.length ∧ ∃ ls, b.setLoads = .ok ls ∧
      ∀ i (hi : i < b.members.length) (hi' : i < rs.length), ∃ c : MCtx K,
        b.members[i].ctx i ls (res.fmbr i) (elemVec res.d i) npts (sp i) = .ok c ∧
        rs[i] = { c.result with x := fun k => c.x k + b.nodeX i } := by
  unfold BeamDef.memberResults at h
  split at h
  · cases h
  · rename_i ls hls
    obtain ⟨h1, h2⟩ := mapE_ok h
    simp only [List.length_zipIdx] at h1 h2
    refine ⟨h1, ls, hls, fun i hi hi' => ?_⟩
    have := h2 i hi hi'
    simp only [List.getElem_zipIdx, Nat.zero_add] at this
    split at this
    · cases this
    · rename_i r hr
      simp only [Member.values] at hr
      split at hr
      · cases hr
      · rename_i c hc
        cases hr
        refine ⟨c, hc, ?_⟩
        injection this with this
        exact this.symm

theorem Member.ctx_ok {m : Member K} {i : ℕ} {ls : List (SpanLoad K)} {f d : Vec4 K} {npts : ℕ}
    {sp : List K} {c : MCtx K} (h : m.ctx i ls f d npts sp = .ok c) :
    c.m = m ∧ c.own = ownLoads i ls ∧ c.f = f ∧ c.d = d ∧ c.npts = npts ∧ c.sp = sp ∧
      ∃ cnls, mapE m.cnl (ownLoads i ls) = .ok cnls ∧ c.Ma = (cnls.map CNL.Ma).sum ∧
        c.Mb = (cnls.map CNL.Mb).sum := by
  unfold Member.ctx at h
  split at h
  · cases h
  · rename_i cnls hc
    cases h
    exact ⟨rfl, rfl, rfl, rfl, rfl, rfl, cnls, hc, rfl, rfl⟩

theorem MCtx.x_spec (c : MCtx K) (hL : 0 < c.m.L) (hn : 0 < c.npts) :
    c.n = c.npts + 3 + 2 * (insidePoints c.m.L c.sp).length ∧
      c.x 0 = 0 ∧ c.x 1 = 0 ∧ c.x (c.n - 2) = c.m.L ∧ c.x (c.n - 1) = c.m.L ∧
      (∀ i j, i ≤ j → j < c.n → c.x i ≤ c.x j) := by
  obtain ⟨h1, h2, h3, h4, h5⟩ := memberGrid_spec hL hn c.sp
  obtain ⟨p1, p2, p3, p4, p5⟩ := padded_spec h4 h1 h2 h3
  refine ⟨?_, p1, p2, ?_, ?_, ?_⟩
  · simp only [MCtx.n, MCtx.grid, h5]
    omega
  · exact p3
  · exact p4
  · exact p5

/-! ## C52 -/

theorem BeamDef.nodeX_mono (b : BeamDef K) (hpos : ∀ m ∈ b.members, 0 < m.L) :
    ∀ i j, i ≤ j → j ≤ b.members.length → b.nodeX i ≤ b.nodeX j := by
  intro i j hij
  induction j, hij using Nat.le_induction with
  | base => intro _; exact le_rfl
  | succ j _ ih =>
    intro hj
    refine (ih (by omega)).trans ?_
    rw [b.nodeX_succ j (by omega)]
    have := hpos _ (List.getElem_mem (show j < b.members.length by omega))
    linarith

/-- The stations of each member. -/
theorem BeamDef.stations {b : BeamDef K} (hpos : ∀ m ∈ b.members, 0 < m.L) {res : Result K}
    {npts : ℕ} (hn : 0 < npts) {sp : ℕ → List K} {rs : List (MRes K)}
    (h : b.memberResults res npts sp = .ok rs) :
    ∀ i (hi : i < b.members.length) (hi' : i < rs.length),
      rs[i].n = npts + 3 + 2 * (insidePoints b.members[i].L (sp i)).length ∧
      rs[i].x 0 = b.nodeX i ∧ rs[i].x 1 = b.nodeX i ∧
      rs[i].x (rs[i].n - 2) = b.nodeX (i + 1) ∧ rs[i].x (rs[i].n - 1) = b.nodeX (i + 1) ∧
      rs[i].M 0 = 0 ∧ rs[i].V 0 = 0 ∧ rs[i].M (rs[i].n - 1) = 0 ∧ rs[i].V (rs[i].n - 1) = 0 ∧
      ∀ p q, p ≤ q → q < rs[i].n → rs[i].x p ≤ rs[i].x q := by
  obtain ⟨hlen, ls, hls, hc⟩ := BeamDef.memberResults_ok h
  intro i hi hi'
  obtain ⟨c, h1, h2⟩ := hc i hi hi'
  obtain ⟨m1, m2, m3, m4, m5, m6, _⟩ := Member.ctx_ok h1
  have hL := hpos _ (List.getElem_mem hi)
  obtain ⟨x1, x2, x3, x4, x5, x6⟩ := c.x_spec (by rw [m1]; exact hL) (by rw [m5]; exact hn)
  rw [h2]
  simp only [MCtx.result]
  refine ⟨by rw [x1, m5, m1, m6], ?_, ?_, ?_, ?_, ?_, ?_, ?_, ?_, ?_⟩
  · rw [x2, zero_add]
  · rw [x3, zero_add]
  · rw [x4, m1, b.nodeX_succ i hi, add_comm]
  · rw [x5, m1, b.nodeX_succ i hi, add_comm]
  · simp [MCtx.M, MCtx.IsEnd]
  · simp [MCtx.V, MCtx.IsEnd]
  · simp [MCtx.M, MCtx.IsEnd]
  · simp [MCtx.V, MCtx.IsEnd]
  · intro p q hpq hq
    have := x6 p q hpq hq
    linarith

/-- **C52**: the stations of the whole beam are nondecreasing, start at 0 and end at
its length; each member contributes its resolution plus three stations, and two
more for every shear point inside it, starting and ending (twice each) at its ends, with
zero shear and moment at the padding stations. -/
theorem C52_stations (b : BeamDef K) (hpos : ∀ m ∈ b.members, 0 < m.L) (hne : b.members ≠ [])
    (res : Result K) (npts : ℕ) (hn : 0 < npts) (sp : ℕ → List K) (rs : List (MRes K))
    (h : b.memberResults res npts sp = .ok rs) :
    (concatResults rs MRes.x).Pairwise (· ≤ ·) ∧
    (concatResults rs MRes.x).head? = some 0 ∧
    (concatResults rs MRes.x).getLast? = some (b.members.map Member.L).sum ∧
    rs.length = b.members.length ∧
    ∀ i (hi : i < b.members.length) (hi' : i < rs.length),
      rs[i].n = npts + 3 + 2 * (insidePoints b.members[i].L (sp i)).length ∧
      rs[i].x 0 = b.nodeX i ∧ rs[i].x 1 = b.nodeX i ∧
      rs[i].x (rs[i].n - 2) = b.nodeX (i + 1) ∧ rs[i].x (rs[i].n - 1) = b.nodeX (i + 1) ∧
      rs[i].M 0 = 0 ∧ rs[i].V 0 = 0 ∧ rs[i].M (rs[i].n - 1) = 0 ∧ rs[i].V (rs[i].n - 1) = 0 := by
  obtain ⟨hlen, ls, hls, hc⟩ := BeamDef.memberResults_ok h
  have key := BeamDef.stations hpos hn h
  have hmono := b.nodeX_mono hpos
  have hpair : (concatResults rs MRes.x).Pairwise (· ≤ ·) := by
    unfold concatResults
    rw [List.pairwise_flatMap]
    constructor
    · intro r hr
      obtain ⟨i, hi, rfl⟩ := List.getElem_of_mem hr
      obtain ⟨k1, k2, k3, k4, k5, k6, k7, k8, k9, k10⟩ := key i (by omega) hi
      simp only [MRes.list]
      rw [List.pairwise_map]
      rw [List.pairwise_iff_getElem]
      intro p q hp hq hpq
      simp only [List.getElem_range]
      simp only [List.length_range] at hq
      exact k10 p q hpq.le hq
    · rw [List.pairwise_iff_getElem]
      intro i j hi hj hij x hx y hy
      simp only [MRes.list, List.mem_map, List.mem_range] at hx hy
      obtain ⟨p, hp, rfl⟩ := hx
      obtain ⟨q, hq, rfl⟩ := hy
      obtain ⟨k1, k2, k3, k4, k5, k6, k7, k8, k9, k10⟩ := key i (by omega) hi
      obtain ⟨l1, l2, l3, l4, l5, l6, l7, l8, l9, l10⟩ := key j (by omega) hj
      calc rs[i].x p ≤ rs[i].x (rs[i].n - 1) := k10 _ _ (by omega) (by omega)
        _ = b.nodeX (i + 1) := k5
        _ ≤ b.nodeX j := hmono _ _ (by omega) (by omega)
        _ = rs[j].x 0 := l2.symm
        _ ≤ rs[j].x q := l10 _ _ (by omega) hq
  have hpl : 0 < b.members.length := List.length_pos_of_ne_nil hne
  refine ⟨hpair, ?_, ?_, hlen, fun i hi hi' => ?_⟩
  · obtain ⟨k1, k2, _⟩ := key 0 hpl (by omega)
    cases rs with
    | nil => simp at hlen; omega
    | cons r t =>
      simp only [List.getElem_cons_zero] at k1 k2
      have : r.list MRes.x = r.x 0 :: ((List.range (r.n - 1)).map fun k => r.x (k + 1)) := by
        simp only [MRes.list]
        have : r.n = (r.n - 1) + 1 := by omega
        rw [this, List.range_succ_eq_map]
        simp [Function.comp_def]
      simp only [concatResults, List.flatMap_cons, this, List.cons_append, List.head?_cons, k2]
      simp [BeamDef.nodeX]
  · have hr : rs.length = b.members.length := hlen
    obtain ⟨k1, k2, k3, k4, k5, _⟩ := key (b.members.length - 1) (by omega) (by omega)
    have hsplit : rs = rs.take (rs.length - 1) ++ [rs[rs.length - 1]] := by
      have := List.take_append_getElem (l := rs) (i := rs.length - 1) (by omega)
      rw [this, Nat.sub_add_cancel (by omega), List.take_length]
    have hcat : concatResults rs MRes.x = concatResults (rs.take (rs.length - 1)) MRes.x ++
        (rs[rs.length - 1]).list MRes.x := by
      have : ∀ u v : List (MRes K), concatResults (u ++ v) MRes.x =
          concatResults u MRes.x ++ concatResults v MRes.x := by
        intro u v
        simp [concatResults]
      have h2 := this (rs.take (rs.length - 1)) [rs[rs.length - 1]]
      rw [← hsplit] at h2
      rw [h2]
      simp [concatResults]
    have hi : rs.length - 1 = b.members.length - 1 := by omega
    have hl : (rs[rs.length - 1]).list MRes.x =
        ((List.range ((rs[rs.length - 1]).n - 1)).map (rs[rs.length - 1]).x) ++
          [(rs[rs.length - 1]).x ((rs[rs.length - 1]).n - 1)] := by
      simp only [MRes.list]
      have : (rs[rs.length - 1]).n = ((rs[rs.length - 1]).n - 1) + 1 := by
        simp only [hi]
        omega
      conv_lhs => rw [this, List.range_succ, List.map_append]
      simp
    rw [hcat, hl, ← List.append_assoc, List.getLast?_concat]
    simp only [hi, k5]
    have : b.members.length - 1 + 1 = b.members.length := by omega
    simp [BeamDef.nodeX, this]
  · obtain ⟨k1, k2, k3, k4, k5, k6, k7, k8, k9, _⟩ := key i hi hi'
    exact ⟨k1, k2, k3, k4, k5, k6, k7, k8, k9⟩

/-! ## C49 -/

/-- The load lies wholly on the span (an imposed curvature always does). -/
def Load.Within (L : K) : Load K → Prop
  | .ic _ _ => True
  | ld => ld.OnSpan L

/-- Point force applied exactly at the right end. -/
def Load.endForce (L : K) : Load K → K
  | .pl P a => if a = L then P else 0
  | _ => 0

/-- Couple applied exactly at the left end. -/
def Load.startCouple : Load K → K
  | .ml m a => if a = 0 then m else 0
  | _ => 0

/-- Couple applied exactly at the right end. -/
def Load.endCouple (L : K) : Load K → K
  | .ml m a => if a = L then m else 0
  | _ => 0

theorem parseRow_no_mamb {r : Row K} {l : SpanLoad K} (h : parseRow r = .ok (some l)) (A B : K) :
    l.load ≠ .mamb A B := by
  unfold parseRow at h
  simp only at h
  repeat' split at h
  all_goals (cases h <;> simp)

theorem parseLM_no_mamb {LM : List (Row K)} {ls : List (SpanLoad K)} (h : parseLM LM = .ok ls) :
    ∀ l ∈ ls, ∀ A B : K, l.load ≠ .mamb A B := by
  induction LM generalizing ls with
  | nil => cases h; simp
  | cons r rs ih =>
    simp only [parseLM] at h
    split at h
    · cases h
    · rename_i o ho
      split at h
      · cases h
      · rename_i ls' hls
        cases o with
        | none => cases h; exact ih hls
        | some l0 =>
          cases h
          intro l hl A B
          rcases List.mem_cons.1 hl with rfl | hl
          · exact parseRow_no_mamb ho A B
          · exact ih hls l hl A B

theorem BeamDef.setLoads_no_mamb {b : BeamDef K} {ls : List (SpanLoad K)}
    (h : b.setLoads = .ok ls) : ∀ l ∈ ls, ∀ A B : K, l.load ≠ .mamb A B := by
  unfold BeamDef.setLoads at h
  split at h
  · cases h
  · rename_i ls' hls
    split at h
    · cases h
      exact parseLM_no_mamb hls
    · cases h

/-- Values of the simply supported diagrams of a load at the two ends of its span. -/
theorem Load.ends (m : Member K) (hL : 0 < m.L) (ld : Load K) (hw : ld.Within m.L)
    (hm : ∀ A B : K, ld ≠ .mamb A B) (c : CNL K) (hc : m.cnl ld = .ok c) :
    ld.ssV m.L 0 = c.Va - (c.Ma + c.Mb) / m.L ∧
    ld.ssV m.L m.L = -c.Vb - (c.Ma + c.Mb) / m.L + ld.endForce m.L ∧
    ld.ssM m.L 0 = -ld.startCouple ∧ ld.ssM m.L m.L = ld.endCouple m.L := by
  obtain ⟨EI, L, et, GAv⟩ := m
  simp only at *
  have hL0 : L ≠ 0 := hL.ne'
  have hcnl : ∀ ld' : Load K, (∀ k e, ld' ≠ .ic k e) → ∀ c', Member.cnl ⟨EI, L, et, GAv⟩ ld' = .ok c' →
      ld'.getCnl L = .ok (.cnl c') := by
    intro ld' h' c' hc'
    simp only [Member.cnl] at hc'
    split at hc'
    · exact absurd rfl (h' _ _)
    · exact absurd rfl (h' _ _)
    · split at hc'
      · cases hc'
      · cases hc'
      · cases hc'
        assumption
  cases ld with
  | mamb A B => exact absurd rfl (hm A B)
  | ic k e =>
    simp only [Load.ssV, Load.ssM, Load.stn, Load.endForce, Load.startCouple, Load.endCouple]
    simp only [Member.cnl] at hc
    have : c.Va = (c.Ma + c.Mb) / L ∧ c.Vb = -(c.Ma + c.Mb) / L := by
      cases EI with
      | const e => cases hc; simp [icCnl]
      | «section» s =>
        simp only [icCnlSection] at hc
        split at hc
        · cases hc
        · cases hc; simp
    rw [this.1, this.2]
    refine ⟨by ring, by ring, by ring, trivial⟩
  | udl w =>
    have h := hcnl _ (by simp) _ hc
    simp only [Load.getCnl] at h
    cases h
    simp only [Load.ssV, Load.ssM, Load.stn, udlStn, udlCnl, Load.endForce, Load.startCouple,
      Load.endCouple]
    refine ⟨?_, ?_, ?_, ?_⟩ <;> field_simp <;> ring
  | pl P a =>
    have h := hcnl _ (by simp) _ hc
    simp only [Load.getCnl] at h
    cases h
    obtain ⟨ha, haL⟩ : 0 ≤ a ∧ a ≤ L := hw
    have hb : max (L - a) 0 = L - a := max_eq_left (by linarith)
    simp only [Load.ssV, Load.ssM, Load.stn, plStn, plCnl, Load.endForce, Load.startCouple,
      Load.endCouple, hb]
    refine ⟨?_, ?_, ?_, ?_⟩
    · have : hv (0 - a) (0 : K) = 0 := by
        unfold hv
        split
        · rfl
        · split
          · rfl
          · rename_i g1 g2
            exact absurd (lt_of_le_of_ne (by linarith) g2) g1
      rw [this]
      field_simp
      ring
    · by_cases h : a = L
      · subst h
        simp [hv]
        field_simp
        ring
      · have hlt : a < L := lt_of_le_of_ne haL h
        have : hv (L - a) (0 : K) = 1 := by
          unfold hv
          rw [if_neg (by linarith), if_neg (by intro h'; apply h; linarith)]
        rw [this, if_neg h]
        field_simp
        ring
    · rw [mb_of_nonpos (by linarith)]
      ring
    · rw [mb_of_nonneg (by linarith)]
      field_simp
      ring
  | pudl w a d =>
    have h := hcnl _ (by simp) _ hc
    obtain ⟨ha, hd, had⟩ : 0 ≤ a ∧ 0 ≤ d ∧ a + d ≤ L := hw
    simp only [Load.getCnl] at h
    rw [if_neg (by linarith), if_neg (by linarith)] at h
    cases h
    simp only [Load.ssV, Load.ssM, Load.stn, pudlStn, pudlCnl, Load.endForce, Load.startCouple,
      Load.endCouple]
    rw [mb_of_nonpos (v := 0 - a) (by linarith), mb_of_nonpos (v := 0 - (d + a)) (by linarith),
      mb_of_nonneg (v := L - a) (by linarith), mb_of_nonneg (v := L - (d + a)) (by linarith)]
    refine ⟨?_, ?_, ?_, ?_⟩ <;> field_simp <;> ring
  | ml μ a =>
    have h := hcnl _ (by simp) _ hc
    simp only [Load.getCnl] at h
    cases h
    obtain ⟨ha, haL⟩ : 0 ≤ a ∧ a ≤ L := hw
    simp only [Load.ssV, Load.ssM, Load.stn, mlStn, mlCnl, Load.endForce, Load.startCouple,
      Load.endCouple]
    refine ⟨?_, ?_, ?_, ?_⟩
    · field_simp
      ring
    · field_simp
      ring
    · by_cases h0 : a = 0
      · subst h0
        simp [hv]
      · have : 0 < a := lt_of_le_of_ne ha (Ne.symm h0)
        simp [hv, h0, this]
    · by_cases h0 : a = L
      · subst h0
        simp [hv, hL0]
      · have : a < L := lt_of_le_of_ne haL h0
        have h1 : ¬ (L < a) := by linarith
        have h2 : ¬ (L - a = 0) := fun h' => h0 (by linarith)
        simp [hv, h0, this, h1, h2]
        field_simp
        simp
  | trapez w1 w2 a d =>
    have h := hcnl _ (by simp) _ hc
    obtain ⟨ha, hd⟩ : 0 ≤ a ∧ ∀ c', d = some c' → a + c' ≤ L := hw
    simp only [Load.getCnl] at h
    simp only [Load.ssV, Load.ssM, Load.stn, Load.endForce, Load.startCouple, Load.endCouple]
    by_cases hz : (resolveTrapez w1 w2 a d L).2.2.2.2 ≤ 0
    · rw [if_pos hz] at h
      rw [if_pos hz]
      rw [if_pos hz]
      cases h
      simp
    · rw [if_neg hz] at h
      rw [if_neg hz, if_neg hz]
      cases h
      have hr : ∃ e, 0 < e ∧ a + e ≤ L ∧ resolveTrapez w1 w2 a d L = (w1, w2, w2 - w1, a, e) := by
        have hfit : ∀ e, ¬ (L ≤ a ∨ e ≤ 0) → a + e ≤ L →
            (if L ≤ a ∨ e ≤ 0 then (w1, w2, 0, a, 0)
              else if L < a + e then
                (w1, w1 + (w2 - w1) * (L - a) / e, w1 + (w2 - w1) * (L - a) / e - w1, a, L - a)
              else (w1, w2, w2 - w1, a, e)) = (w1, w2, w2 - w1, a, e) := by
          intro e h1 h2
          rw [if_neg h1, if_neg (by linarith)]
        cases d with
        | none =>
          have h1 : ¬ (L ≤ a ∨ L - a ≤ 0) := by
            intro h1
            apply hz
            simp only [resolveTrapez]
            rw [if_pos h1]
          refine ⟨L - a, ?_, by linarith, ?_⟩
          · push Not at h1
            exact h1.2
          · simp only [resolveTrapez]
            exact hfit _ h1 (by linarith)
        | some e =>
          have h1 : ¬ (L ≤ a ∨ e ≤ 0) := by
            intro h1
            apply hz
            simp only [resolveTrapez]
            rw [if_pos h1]
          refine ⟨e, ?_, hd e rfl, ?_⟩
          · push Not at h1
            exact h1.2
          · simp only [resolveTrapez]
            exact hfit _ h1 (hd e rfl)
      obtain ⟨e, he, hae, hr⟩ := hr
      rw [hr]
      have he0 := he.ne'
      simp only [trapezStn, trapezCnl]
      rw [mb_of_nonpos (v := 0 - a) (by linarith), mb_of_nonpos (v := 0 - (a + e)) (by linarith),
        mb_of_nonneg (v := L - a) (by linarith), mb_of_nonneg (v := L - (a + e)) (by linarith)]
      refine ⟨?_, ?_, ?_, ?_⟩ <;> field_simp <;> ring

theorem exists_cnl_of_ref {m : Member K} {ld : Load K} {c' : CNL K} (h : m.ref ld = .ok c') :
    ∃ c, m.cnl ld = .ok c := by
  unfold Member.ref at h
  split at h
  · cases h
  · exact ⟨_, by assumption⟩

/-- The system, loads and member context behind the results of member `i`. -/
theorem BeamDef.results_member {b : BeamDef K} {stable : System K → Bool} {solve : Solver K}
    (hs : solve.Sound) {res : Result K} (h : b.analyze stable solve = .ok res) {npts : ℕ}
    {sp : ℕ → List K} {rs : List (MRes K)} (hr : b.memberResults res npts sp = .ok rs) (i : ℕ)
    (hi : i < b.members.length) (hi' : i < rs.length) :
    ∃ (ls : List (SpanLoad K)) (k : Mat4 K) (t : CNL K) (c : MCtx K), b.setLoads = .ok ls ∧
      b.members[i].spanK = .ok k ∧ b.members[i].refSum i ls = .ok t ∧
      res.fmbr i = k *ᵥ elemVec res.d i + t.vec ∧
      c.m = b.members[i] ∧ c.own = ownLoads i ls ∧ c.f = res.fmbr i ∧ c.d = elemVec res.d i ∧
      c.npts = npts ∧ c.sp = sp i ∧
      rs[i] = { c.result with x := fun k => c.x k + b.nodeX i } := by
  obtain ⟨s, h1, h2⟩ := BeamDef.analyze_ok h
  obtain ⟨hn, hk, ⟨ls, hls, href⟩, _⟩ := BeamDef.system_ok h1
  obtain ⟨_, _, _, hf, _⟩ := System.analyze_ok hs h2
  obtain ⟨_, ls', hls', hc⟩ := BeamDef.memberResults_ok hr
  rw [hls] at hls'
  cases hls'
  obtain ⟨t, ht1, ht2⟩ := href i hi
  obtain ⟨c, hc1, hc2⟩ := hc i hi hi'
  obtain ⟨m1, m2, m3, m4, m5, m6, _⟩ := Member.ctx_ok hc1
  refine ⟨ls, s.kb i, t, c, hls, hk i hi, ht1, ?_, m1, m2, m3, m4, m5, m6, hc2⟩
  rw [hf]
  simp only [System.endForces, ht2]

/-- **C49, partial**: the diagrams of every member meet its nodal end forces.  Just
after the left end the moment is minus the end moment (less a couple applied exactly
there), just before the right end it is the end moment (plus a couple applied exactly
there); unless the member is pinned-pinned the shear just after the left end is the end
shear, and before the right end minus the end shear (plus a force applied exactly there).
What is missing is the shear of pinned-pinned members, where it is false
(`C49_pinned_pinned_violation`), and loads overhanging their span. -/
theorem C49_end_closure_partial (b : BeamDef K) (hgood : ∀ m ∈ b.members, m.Good)
    (stable : System K → Bool) (solve : Solver K) (hs : solve.Sound) (res : Result K)
    (h : b.analyze stable solve = .ok res) (npts : ℕ) (hn : 0 < npts) (sp : ℕ → List K)
    (rs : List (MRes K)) (hr : b.memberResults res npts sp = .ok rs)
    (ls : List (SpanLoad K)) (hls : b.setLoads = .ok ls)
    (i : ℕ) (hi : i < b.members.length) (hi' : i < rs.length)
    (hon : ∀ l ∈ ls, l.iSpan = (i : ℤ) → l.load.Within b.members[i].L) :
    rs[i].M 1 = -res.fmbr i 1 - ((ownLoads i ls).map Load.startCouple).sum ∧
    rs[i].M (rs[i].n - 2) =
      res.fmbr i 3 + ((ownLoads i ls).map (Load.endCouple b.members[i].L)).sum ∧
    (b.members[i].et ≠ .PP →
      rs[i].V 1 = res.fmbr i 0 ∧
      rs[i].V (rs[i].n - 2) =
        -res.fmbr i 2 + ((ownLoads i ls).map (Load.endForce b.members[i].L)).sum) := by
  obtain ⟨ls', k, t, c, hls', hk, ht, hf, m1, m2, m3, m4, m5, m6, hc⟩ :=
    BeamDef.results_member hs h hr i hi hi'
  rw [hls] at hls'
  cases hls'
  have hg := hgood _ (List.getElem_mem hi)
  have hL : 0 < b.members[i].L := hg.1
  have hL0 := hL.ne'
  obtain ⟨x1, x2, x3, x4, x5, x6⟩ := c.x_spec (by rw [m1]; exact hL) (by rw [m5]; exact hn)
  have hnm := BeamDef.setLoads_no_mamb hls
  generalize hm : b.members[i] = m at *
  have hends : ∀ l ∈ ls, l.iSpan = (i : ℤ) → ∀ cc, m.cnl l.load = .ok cc →
      l.load.ssV m.L 0 = cc.Va - (cc.Ma + cc.Mb) / m.L ∧
      l.load.ssV m.L m.L = -cc.Vb - (cc.Ma + cc.Mb) / m.L + l.load.endForce m.L ∧
      l.load.ssM m.L 0 = -l.load.startCouple ∧ l.load.ssM m.L m.L = l.load.endCouple m.L :=
    fun l hl hli cc hcc => Load.ends m hL l.load (hon l hl hli) (hnm l hl) cc hcc
  have hown : ∀ ld ∈ ownLoads i ls, ∃ l ∈ ls, l.iSpan = (i : ℤ) ∧ l.load = ld := by
    intro ld hld
    simp only [ownLoads, List.mem_map, List.mem_filter, decide_eq_true_eq] at hld
    obtain ⟨l, ⟨h1, h2⟩, h3⟩ := hld
    exact ⟨l, h1, h2, h3⟩
  -- the loads were all evaluated, so their clamped forces exist
  have hcnl : ∀ ld ∈ ownLoads i ls, ∃ cc, m.cnl ld = .ok cc := by
    obtain ⟨_, ls', hls', hc'⟩ := BeamDef.memberResults_ok hr
    rw [hls] at hls'
    cases hls'
    obtain ⟨c', hc1, _⟩ := hc' i hi hi'
    obtain ⟨_, _, _, _, _, _, cnls, hcn, _⟩ := Member.ctx_ok hc1
    rw [hm] at hcn
    obtain ⟨l1, l2⟩ := mapE_ok hcn
    intro ld hld
    obtain ⟨j, hj, rfl⟩ := List.getElem_of_mem hld
    exact ⟨_, l2 j hj (by omega)⟩
  have hIs1 : ¬ c.IsEnd 1 := by simp only [MCtx.IsEnd]; omega
  have hIs2 : ¬ c.IsEnd (c.n - 2) := by simp only [MCtx.IsEnd]; omega
  have hsum : ∀ f g : Load K → K, (∀ ld ∈ ownLoads i ls, f ld = g ld) →
      ((ownLoads i ls).map f).sum = ((ownLoads i ls).map g).sum := by
    intro f g hfg
    rw [List.map_congr_left hfg]
  have hneg : ∀ (l : List (Load K)) (f : Load K → K), (l.map fun ld => -f ld).sum = -(l.map f).sum := by
    intro l f
    induction l with
    | nil => simp
    | cons a l ih => simp only [List.map_cons, List.sum_cons, ih]; ring
  have hnres : rs[i].n = c.n := by rw [hc]; rfl
  rw [hnres]
  have eM : ∀ k, rs[i].M k = c.M k := fun k => by rw [hc]; rfl
  have eV : ∀ k, rs[i].V k = c.V k := fun k => by rw [hc]; rfl
  refine ⟨?_, ?_, fun het => ?_⟩
  · rw [eM]
    simp only [MCtx.M, if_neg hIs1, x3, mambStn, m1, m2, m3]
    rw [hsum (fun ld => ld.ssM m.L 0) (fun ld => -ld.startCouple), hneg]
    · ring
    · intro ld hld
      obtain ⟨l, hl, hli, rfl⟩ := hown ld hld
      obtain ⟨cc, hcc⟩ := hcnl _ hld
      exact (hends l hl hli cc hcc).2.2.1
  · rw [eM]
    simp only [MCtx.M, if_neg hIs2, x4, mambStn, m1, m2, m3]
    rw [hsum (fun ld => ld.ssM m.L m.L) (fun ld => ld.endCouple m.L)]
    · field_simp
      ring
    · intro ld hld
      obtain ⟨l, hl, hli, rfl⟩ := hown ld hld
      obtain ⟨cc, hcc⟩ := hcnl _ hld
      exact (hends l hl hli cc hcc).2.2.2
  · have q1 := rigid_no_work hg hk 1 0 (elemVec res.d i)
    have q2 := rigid_no_work hg hk 0 1 (elemVec res.d i)
    have f0 : ∀ j, res.fmbr i j = (k *ᵥ elemVec res.d i) j + t.vec j := fun j => by rw [hf]; rfl
    simp only [dot4, rigidMotion] at q1 q2
    simp at q1 q2
    have p1 := m.refSum_lin i (fun c => c.Va - (c.Ma + c.Mb) / m.L) (by simp)
      (fun c t => by simp only; ring) (fun l => l.load.ssV m.L 0) ls
      (fun l hl hli c' hc' => by
        obtain ⟨cc, hcc⟩ := exists_cnl_of_ref hc'
        obtain ⟨e1, e2⟩ := m.ref_equil hL0 _ _ _ hcc hc'
        rw [(hends l hl hli cc hcc).1]
        have e3 := e2 het
        field_simp
        linear_combination m.L * e1 - e3) t ht
    have p2 := m.refSum_lin i (fun c => -c.Vb - (c.Ma + c.Mb) / m.L) (by simp)
      (fun c t => by simp only; ring) (fun l => l.load.ssV m.L m.L - l.load.endForce m.L) ls
      (fun l hl hli c' hc' => by
        obtain ⟨cc, hcc⟩ := exists_cnl_of_ref hc'
        obtain ⟨e1, e2⟩ := m.ref_equil hL0 _ _ _ hcc hc'
        rw [(hends l hl hli cc hcc).2.1]
        have e3 := e2 het
        field_simp
        linear_combination -e3) t ht
    have s1 : ((ownLoads i ls).map fun ld => ld.ssV m.L 0).sum =
        ((ls.filter fun l => l.iSpan = (i : ℤ)).map fun l => l.load.ssV m.L 0).sum := by
      simp only [ownLoads, List.map_map, Function.comp_def]
    have s2 : ((ownLoads i ls).map fun ld => ld.ssV m.L m.L).sum -
        ((ownLoads i ls).map (Load.endForce m.L)).sum =
        ((ls.filter fun l => l.iSpan = (i : ℤ)).map
          fun l => l.load.ssV m.L m.L - l.load.endForce m.L).sum := by
      simp only [ownLoads, List.map_map, Function.comp_def]
      induction (ls.filter fun l => l.iSpan = (i : ℤ)) with
      | nil => simp
      | cons a l ih => simp only [List.map_cons, List.sum_cons, ← ih]; ring
    rw [← s1] at p1
    rw [← s2] at p2
    constructor
    · rw [eV]
      simp only [MCtx.V, if_neg hIs1, x3, mambStn, m1, m2, m3]
      rw [← p1, f0, f0, f0]
      simp only [CNL.vec]
      simp
      field_simp
      linear_combination q2 - m.L * q1
    · rw [eV]
      simp only [MCtx.V, if_neg hIs2, x4, mambStn, m1, m2, m3]
      rw [← sub_eq_iff_eq_add, add_sub_assoc, ← p2, f0, f0, f0]
      simp only [CNL.vec]
      simp
      field_simp
      linear_combination q2

/-! ## C51 -/

theorem uniqueFirst_cons (p : K × K) (l : List (K × K)) :
    ∃ t, uniqueFirst (p :: l) = p :: t := by
  cases l with
  | nil => exact ⟨[], rfl⟩
  | cons q l =>
    simp only [uniqueFirst]
    split
    · split
      · exact ⟨_, rfl⟩
      · exact ⟨_, rfl⟩
    · exact ⟨_, rfl⟩

theorem uniqueFirst_mem (l : List (K × K)) : ∀ p ∈ uniqueFirst l, p ∈ l := by
  induction l with
  | nil => simp [uniqueFirst]
  | cons a l ih =>
    cases l with
    | nil => simp [uniqueFirst]
    | cons q l =>
      obtain ⟨t, ht⟩ := uniqueFirst_cons q l
      intro p hp
      simp only [uniqueFirst, ht] at hp
      rw [ht] at ih
      split at hp
      · rcases List.mem_cons.1 hp with rfl | hp
        · simp
        · exact List.mem_cons_of_mem _ (ih p (List.mem_cons_of_mem _ hp))
      · rcases List.mem_cons.1 hp with rfl | hp
        · simp
        · exact List.mem_cons_of_mem _ (ih p hp)

theorem uniqueFirst_append (pre post : List (K × K)) (p : K × K) (h : ∀ a ∈ pre, a.1 < p.1) :
    uniqueFirst (pre ++ p :: post) = uniqueFirst pre ++ uniqueFirst (p :: post) := by
  induction pre with
  | nil => simp [uniqueFirst]
  | cons a pre ih =>
    have ih := ih fun b hb => h b (List.mem_cons_of_mem _ hb)
    cases pre with
    | nil =>
      have : a.1 ≠ p.1 := (h a (by simp)).ne
      simp [uniqueFirst, this]
    | cons b pre =>
      obtain ⟨t, ht⟩ := uniqueFirst_cons b pre
      simp only [List.cons_append] at ih ⊢
      simp only [uniqueFirst, ih, ht, List.cons_append]
      split <;> simp

theorem npInterp_skip (x : K) (U t : List (K × K)) (p : K × K) (hU : ∀ a ∈ U, a.1 < p.1)
    (hx : p.1 ≤ x) : npInterp x (U ++ p :: t) = npInterp x (p :: t) := by
  induction U with
  | nil => rfl
  | cons a U ih =>
    have ih := ih fun b hb => hU b (List.mem_cons_of_mem _ hb)
    have ha := hU a (by simp)
    cases U with
    | nil =>
      simp only [List.cons_append, List.nil_append, npInterp]
      rw [if_neg (by linarith), if_neg (by linarith)]
    | cons b U =>
      have hb := hU b (by simp)
      simp only [List.cons_append] at ih ⊢
      rw [npInterp, if_neg (by linarith), if_neg (by linarith)]
      exact ih

/-- A query at a station that is the first with its abscissa returns its value. -/
theorem interp_station (pre post : List (K × K)) (p : K × K) (h : ∀ a ∈ pre, a.1 < p.1) :
    npInterp p.1 (uniqueFirst (pre ++ p :: post)) = .ok p.2 := by
  obtain ⟨t, ht⟩ := uniqueFirst_cons p post
  rw [uniqueFirst_append _ _ _ h, ht,
    npInterp_skip _ _ _ _ (fun a ha => h a (uniqueFirst_mem _ a ha)) le_rfl]
  cases t with
  | nil => rfl
  | cons q t => simp [npInterp]

/-- A query between two consecutive stations, the first being the first with its
abscissa, interpolates linearly between them. -/
theorem interp_between (pre post : List (K × K)) (p q : K × K) (h : ∀ a ∈ pre, a.1 < p.1) (x : K)
    (h1 : p.1 < x) (h2 : x < q.1) :
    npInterp x (uniqueFirst (pre ++ p :: q :: post)) =
      .ok (p.2 + (q.2 - p.2) * ((x - p.1) / (q.1 - p.1))) := by
  obtain ⟨t, ht⟩ := uniqueFirst_cons q post
  have hpq : p.1 ≠ q.1 := (h1.trans h2).ne
  have : uniqueFirst (p :: q :: post) = p :: q :: t := by
    simp only [uniqueFirst, hpq, if_false, ht]
  rw [uniqueFirst_append _ _ _ h, this,
    npInterp_skip _ _ _ _ (fun a ha => h a (uniqueFirst_mem _ a ha)) h1.le, npInterp,
    if_neg (by linarith), if_pos h2]
  congr 1
  ring

theorem zip_flatMap_list (rs : List (MRes K)) (a : MRes K → ℕ → K) :
    (concatResults rs MRes.x).zip (concatResults rs a) =
      rs.flatMap fun r => (List.range r.n).map fun k => (r.x k, a r k) := by
  induction rs with
  | nil => rfl
  | cons r rs ih =>
    simp only [concatResults, List.flatMap_cons] at ih ⊢
    rw [List.zip_append (by simp [MRes.list]), ih]
    congr 1
    simp only [MRes.list, List.zip_map']

theorem range_split (n k : ℕ) (h : k + 1 ≤ n) :
    List.range n = List.range k ++ k :: (List.range (n - (k + 1))).map (k + 1 + ·) := by
  have : n = k + 1 + (n - (k + 1)) := by omega
  conv_lhs => rw [this, List.range_add, List.range_succ]
  simp

/-- **C51, partial**: a query at a station other than the first two of its member
returns the value at that station, and a query strictly between two consecutive ones
interpolates linearly between the values of that member.  The queries this leaves out
are those strictly inside the first interval of a member and at the start of the beam,
where the code uses the padding station at the start of the beam
(`C51_start_violation`) or the value on the other side of the support
(`C51_support_violation`). -/
theorem C51_at_partial (b : BeamDef K) (hpos : ∀ m ∈ b.members, 0 < m.L) (res : Result K)
    (npts : ℕ) (hn : 0 < npts) (sp : ℕ → List K) (rs : List (MRes K))
    (h : b.memberResults res npts sp = .ok rs) (a : MRes K → ℕ → K)
    (i : ℕ) (hi : i < rs.length) (k : ℕ) (hk2 : 2 ≤ k) (hkn : k + 1 < rs[i].n)
    (hfirst : rs[i].x (k - 1) < rs[i].x k) :
    resultsAt rs a (rs[i].x k) = .ok (a rs[i] k) ∧
    (∀ x, rs[i].x k < x → x < rs[i].x (k + 1) →
      resultsAt rs a x = .ok (a rs[i] k + (a rs[i] (k + 1) - a rs[i] k) *
        ((x - rs[i].x k) / (rs[i].x (k + 1) - rs[i].x k)))) := by
  obtain ⟨hlen, _⟩ := BeamDef.memberResults_ok h
  have key := BeamDef.stations hpos hn h
  obtain ⟨k1, k2, k3, k4, k5, _, _, _, _, k10⟩ := key i (by omega) hi
  set pre := ((rs.take i).flatMap fun r => (List.range r.n).map fun k => (r.x k, a r k)) ++
    (List.range k).map fun k => (rs[i].x k, a rs[i] k) with hpre
  obtain ⟨post, hpost⟩ : ∃ post, (concatResults rs MRes.x).zip (concatResults rs a) =
      pre ++ (rs[i].x k, a rs[i] k) :: (rs[i].x (k + 1), a rs[i] (k + 1)) :: post := by
    rw [zip_flatMap_list]
    have hsplit : rs = rs.take i ++ rs[i] :: rs.drop (i + 1) := by
      rw [List.getElem_cons_drop, List.take_append_drop]
    have e : ∀ (u v : List (MRes K)) (w : MRes K), rs = u ++ w :: v →
        (rs.flatMap fun r => (List.range r.n).map fun k => (r.x k, a r k)) =
        (u.flatMap fun r => (List.range r.n).map fun k => (r.x k, a r k)) ++
          (((List.range w.n).map fun k => (w.x k, a w k)) ++
          (v.flatMap fun r => (List.range r.n).map fun k => (r.x k, a r k))) := by
      intro u v w hu
      rw [hu]
      simp
    rw [e _ _ _ hsplit, range_split rs[i].n k (by omega),
      show rs[i].n - (k + 1) = (rs[i].n - (k + 2)) + 1 by omega, List.range_succ_eq_map]
    refine ⟨(((List.range (rs[i].n - (k + 2))).map Nat.succ).map (k + 1 + ·)).map
      (fun k => (rs[i].x k, a rs[i] k)) ++
      ((rs.drop (i + 1)).flatMap fun r => (List.range r.n).map fun k => (r.x k, a r k)), ?_⟩
    simp [hpre]
  have hlt : ∀ q ∈ pre, q.1 < rs[i].x k := by
    intro q hq
    rw [hpre] at hq
    rcases List.mem_append.1 hq with hq | hq
    · simp only [List.mem_flatMap, List.mem_map, List.mem_range] at hq
      obtain ⟨r, hr, j, hj, rfl⟩ := hq
      obtain ⟨i', hi', rfl⟩ := List.getElem_of_mem hr
      simp only [List.length_take] at hi'
      rw [List.getElem_take] at hj ⊢
      obtain ⟨l1, l2, l3, l4, l5, _, _, _, _, l10⟩ := key i' (by omega) (by omega)
      calc rs[i'].x j ≤ rs[i'].x (rs[i'].n - 1) := l10 _ _ (by omega) (by omega)
        _ = b.nodeX (i' + 1) := l5
        _ ≤ b.nodeX i := b.nodeX_mono hpos _ _ (by omega) (by omega)
        _ = rs[i].x 1 := k3.symm
        _ ≤ rs[i].x (k - 1) := k10 _ _ (by omega) (by omega)
        _ < rs[i].x k := hfirst
    · simp only [List.mem_map, List.mem_range] at hq
      obtain ⟨j, hj, rfl⟩ := hq
      exact (k10 j (k - 1) (by omega) (by omega)).trans_lt hfirst
  constructor
  · unfold resultsAt
    rw [hpost]
    exact interp_station pre _ (rs[i].x k, a rs[i] k) hlt
  · intro x h1 h2
    unfold resultsAt
    rw [hpost]
    exact interp_between pre _ (rs[i].x k, a rs[i] k) _ hlt x h1 h2

/-! ## C79 -/

theorem cumTrap_congr_add (h y : ℕ → K) (v : K) (k : ℕ) :
    cumTrap h (fun j => y j + v) k = cumTrap h y k + v * ∑ j ∈ Finset.range k, h j := by
  induction k with
  | zero => simp [cumTrap]
  | succ k ih =>
    rw [cumTrap, cumTrap, ih, Finset.sum_range_succ]
    ring

theorem MCtx.sum_h (c : MCtx K) (hL : 0 < c.m.L) (hn : 0 < c.npts) :
    ∑ j ∈ Finset.range (c.n - 3), c.h j = c.m.L := by
  obtain ⟨x1, x2, x3, x4, x5, x6⟩ := c.x_spec hL hn
  by_cases hb : (memberGrid c.m.L c.npts c.sp).2 = true
  · have : ∀ j, c.h j = c.x (j + 1 + 1) - c.x (j + 1) := fun j => by simp [MCtx.h, hb]
    simp only [this]
    rw [Finset.sum_range_sub (fun j => c.x (j + 1)), x3, show c.n - 3 + 1 = c.n - 2 by omega, x4,
      sub_zero]
  · have hp : (insidePoints c.m.L c.sp).length = 0 := by
      have h6 := shearPairs_length c.m.L c.sp
      unfold memberGrid at hb
      split at hb
      · rename_i h
        rw [h] at h6
        simp only [List.length_nil] at h6
        omega
      · simp at hb
    have : ∀ j, c.h j = c.m.L / c.npts := fun j => by simp [MCtx.h, hb]
    simp only [this, Finset.sum_const, Finset.card_range]
    rw [x1, hp]
    have hn0 : (c.npts : K) ≠ 0 := by exact_mod_cast hn.ne'
    simp
    field_simp

/-- **C79, partial**: at the first interior station of a member the reported deflection
is the displacement of its left node, and, unless it has a released end, the reported
rotation is the rotation of that node; a released member of variable rigidity, with shear
flexibility or with imposed curvature reports at its last interior station the displacement
of its right node.  It is false at the padding stations (`C79_padding_violation`). -/
theorem C79_end_displacements_partial (b : BeamDef K) (hpos : ∀ m ∈ b.members, 0 < m.L)
    (res : Result K) (npts : ℕ) (hn : 0 < npts) (sp : ℕ → List K) (rs : List (MRes K))
    (h : b.memberResults res npts sp = .ok rs) (ls : List (SpanLoad K))
    (hls : b.setLoads = .ok ls) (i : ℕ) (hi : i < b.members.length) (hi' : i < rs.length) :
    rs[i].D 1 = res.d (2 * i) ∧
    (b.members[i].et = .FF → rs[i].R 1 = res.d (2 * i + 1)) ∧
    (b.members[i].et ≠ .FF →
      ((∃ s, b.members[i].EI = .section s) ∨ (∃ g, b.members[i].GAv = some g) ∨
        (∃ k < rs[i].n, ((ownLoads i ls).map
          fun l => l.kappaImp (rs[i].x k - b.nodeX i)).sum ≠ 0)) →
      rs[i].D (rs[i].n - 2) = res.d (2 * (i + 1))) := by
  obtain ⟨_, ls', hls', hc⟩ := BeamDef.memberResults_ok h
  rw [hls] at hls'
  cases hls'
  obtain ⟨c, hc1, hc2⟩ := hc i hi hi'
  obtain ⟨m1, m2, m3, m4, m5, m6, _⟩ := Member.ctx_ok hc1
  have hL : 0 < c.m.L := by rw [m1]; exact hpos _ (List.getElem_mem hi)
  have hn' : 0 < c.npts := by rw [m5]; exact hn
  obtain ⟨x1, x2, x3, x4, x5, x6⟩ := c.x_spec hL hn'
  have hIs1 : ¬ c.IsEnd 1 := by simp only [MCtx.IsEnd]; omega
  have hIs2 : ¬ c.IsEnd (c.n - 2) := by simp only [MCtx.IsEnd]; omega
  rw [hc2]
  simp only [MCtx.result]
  refine ⟨?_, ?_, ?_⟩
  · simp only [MCtx.D, if_neg hIs1, MCtx.defl, Nat.sub_self, cumTrap, zero_add, m4, elemVec]
    simp
  · intro het
    simp only [MCtx.R, if_neg hIs1, MCtx.psi, Nat.sub_self, MCtx.psiProv, cumTrap, zero_add,
      MCtx.psi0, m1, het, if_true, m4, elemVec]
    simp
  · intro het hcase
    have hbc : c.useBc = true := by
      rcases hcase with ⟨s, hs⟩ | ⟨g, hg⟩ | ⟨k, hk, hne⟩
      · simp [MCtx.useBc, m1, hs]
      · simp [MCtx.useBc, m1, hg]
      · simp only [MCtx.useBc, Bool.or_eq_true, List.any_eq_true, decide_eq_true_eq]
        refine Or.inl (Or.inr ⟨k, ?_, ?_⟩)
        · simpa using hk
        · simpa [MCtx.kappa, m2] using hne
    have hpsi : c.psi0 = c.psiBc := by
      simp only [MCtx.psi0, m1, het, if_false, hbc, if_true]
    simp only [MCtx.D, if_neg hIs2, MCtx.defl]
    rw [show c.n - 2 - 1 = c.n - 3 by omega]
    have e : (fun k => c.psi k + c.gamma k) = fun k => (c.psiProv k + c.gamma k) + c.psiBc := by
      funext k
      simp only [MCtx.psi, hpsi]
      ring
    rw [e, cumTrap_congr_add, c.sum_h hL hn']
    have : cumTrap c.h (fun k => c.psiProv k + c.gamma k) (c.n - 3) = c.Dprov (c.n - 3) := rfl
    rw [this]
    simp only [MCtx.psiBc]
    have hL0 := hL.ne'
    rw [div_mul_cancel₀ _ hL0]
    have : c.d 2 = res.d (2 * (i + 1)) := by
      rw [m4]
      simp only [elemVec]
      congr 1
    rw [this]
    ring

/-! ### Violations and concrete cases -/

/-- Analyse a beam with the displacements `x` as the solver's answer and compute its
results on `npts` intervals per member. -/
def exResults (b : BeamDef ℚ) (x : List ℚ) (npts : ℕ) : Except PyErr (Result ℚ × List (MRes ℚ)) :=
  match b.analyze (fun _ => true) (trySolver fun p => x.getD p 0) with
  | .error e => .error e
  | .ok res => match b.memberResults res npts (fun _ => []) with
    | .error e => .error e
    | .ok rs => .ok (res, rs)

theorem ok_of_toOption {α : Type*} {x : Except PyErr α} {a : α} (h : x.toOption = some a) :
    x = .ok a := by
  cases x with
  | error e => cases h
  | ok v => cases h; rfl

theorem exResults_ok {b : BeamDef ℚ} {x : List ℚ} {npts : ℕ} {r : Result ℚ × List (MRes ℚ)}
    (h : exResults b x npts = .ok r) :
    b.analyze (fun _ => true) (trySolver fun p => x.getD p 0) = .ok r.1 ∧
      b.memberResults r.1 npts (fun _ => []) = .ok r.2 := by
  unfold exResults at h
  split at h
  · cases h
  · rename_i res hres
    split at h
    · cases h
    · rename_i rs hrs
      cases h
      exact ⟨hres, hrs⟩

/-- **C49 fails** for the shear of a pinned-pinned member: the shear just after the left end
is that of a simply supported span, 15/2, but the nodal member force is 75/8 (not even
the load's simply supported reaction). -/
theorem C49_pinned_pinned_violation :
    ∃ (b : BeamDef ℚ) (solve : Solver ℚ) (res : Result ℚ) (rs : List (MRes ℚ)), solve.Sound ∧
      b.analyze (fun _ => true) solve = .ok res ∧ b.memberResults res 4 (fun _ => []) = .ok rs ∧
      rs.map (fun r => r.V 1) = [75 / 8, 15 / 2, -5 / 8] ∧
      [res.fmbr 0 0, res.fmbr 1 0, res.fmbr 2 0] = [75 / 8, 75 / 8, -5 / 8] := by
  obtain ⟨r, h1, h2⟩ := ok_of_map
    (x := exResults exHinged [0, 0, -25 / 6, -25 / 8, -5 / 18, 5 / 24, 0, 0] 4)
    (f := fun r => (r.2.map (fun q => q.V 1), [r.1.fmbr 0 0, r.1.fmbr 1 0, r.1.fmbr 2 0]))
    (y := ([75 / 8, 15 / 2, -5 / 8], [75 / 8, 75 / 8, -5 / 8])) (by decide +kernel)
  obtain ⟨h3, h4⟩ := exResults_ok h1
  rw [Prod.ext_iff] at h2
  exact ⟨_, _, r.1, r.2, trySolver_sound _, h3, h4, h2.1, h2.2⟩

/-- The propped cantilever of length 2 under a UDL of 12. -/
def exUdl : BeamDef ℚ := exBeam (-1) none [⟨1, 1, [12]⟩]

/-- C49 and C52 at the propped cantilever: the shear falls from 15 to -9, the moment starts at -6
and vanishes at the prop. -/
example : ∃ r, exResults exUdl [0, 0, 0, 1 / 3] 4 = .ok r ∧
    (concatResults r.2 MRes.x, concatResults r.2 MRes.V, concatResults r.2 MRes.M,
      r.1.fmbr 0) =
    ([0, 0, 1 / 2, 1, 3 / 2, 2, 2], [0, 15, 9, 3, -3, -9, 0],
      [0, -6, 0, 3, 3, 0, 0], ![15, 6, 9, 0]) :=
  ok_of_map (by decide +kernel)

/-- **C51 fails** at the start of the beam: the shear just inside the clamped end is 15,
but the query at 0 returns the 0 of the padding station, and the query at 1/4 averages
it with the shear 9 at 1/2. -/
theorem C51_start_violation :
    ∃ (b : BeamDef ℚ) (solve : Solver ℚ) (res : Result ℚ) (rs : List (MRes ℚ)), solve.Sound ∧
      b.analyze (fun _ => true) solve = .ok res ∧ b.memberResults res 4 (fun _ => []) = .ok rs ∧
      rs.map (fun r => (r.x 1, r.V 1, r.x 2, r.V 2)) = [(0, 15, 1 / 2, 9)] ∧
      resultsAt rs MRes.V 0 = .ok 0 ∧ resultsAt rs MRes.V (1 / 4) = .ok (9 / 2) := by
  obtain ⟨r, h1, h2⟩ := ok_of_map
    (x := exResults exUdl [0, 0, 0, 1 / 3] 4)
    (f := fun r => (r.2.map (fun r => (r.x 1, r.V 1, r.x 2, r.V 2)),
      (resultsAt r.2 MRes.V 0).toOption, (resultsAt r.2 MRes.V (1 / 4)).toOption))
    (y := ([(0, 15, 1 / 2, 9)], some 0, some (9 / 2))) (by decide +kernel)
  obtain ⟨h3, h4⟩ := exResults_ok h1
  simp only [Prod.ext_iff] at h2
  exact ⟨_, _, r.1, r.2, trySolver_sound _, h3, h4, h2.1, ok_of_toOption h2.2.1,
    ok_of_toOption h2.2.2⟩

/-- Two spans of 2, clamped at every node, with a UDL of 12 on the first only. -/
def exTwoClamped : BeamDef ℚ :=
  ⟨[exPrismatic .FF, exPrismatic .FF], List.replicate 6 (-1), List.replicate 6 none,
    [⟨1, 1, [12]⟩]⟩

/-- **C51 fails** just right of an interior support: the second span carries no shear, but
the query at 9/4 interpolates from the shear -12 of the first span. -/
theorem C51_support_violation :
    ∃ (b : BeamDef ℚ) (solve : Solver ℚ) (res : Result ℚ) (rs : List (MRes ℚ)), solve.Sound ∧
      b.analyze (fun _ => true) solve = .ok res ∧ b.memberResults res 4 (fun _ => []) = .ok rs ∧
      rs.map (fun r => (r.x 1, r.V 1, r.x 2, r.V 2)) =
        [(0, 12, 1 / 2, 6), (2, 0, 5 / 2, 0)] ∧
      resultsAt rs MRes.V (9 / 4) = .ok (-6) := by
  obtain ⟨r, h1, h2⟩ := ok_of_map
    (x := exResults exTwoClamped [] 4)
    (f := fun r => (r.2.map (fun r => (r.x 1, r.V 1, r.x 2, r.V 2)),
      (resultsAt r.2 MRes.V (9 / 4)).toOption))
    (y := ([(0, 12, 1 / 2, 6), (2, 0, 5 / 2, 0)], some (-6))) (by decide +kernel)
  obtain ⟨h3, h4⟩ := exResults_ok h1
  simp only [Prod.ext_iff] at h2
  exact ⟨_, _, r.1, r.2, trySolver_sound _, h3, h4, h2.1, ok_of_toOption h2.2⟩

/-- C51 at the propped cantilever: halfway between the stations 1/2 and 1. -/
example : ∃ r, exResults exUdl [0, 0, 0, 1 / 3] 4 = .ok r ∧
    ((resultsAt r.2 MRes.V (3 / 4)).toOption, (resultsAt r.2 MRes.M 1).toOption,
      r.2.map fun q => (q.x 1, q.x 2, q.n)) = (some 6, some 3, [(0, 1 / 2, 7)]) :=
  ok_of_map (by decide +kernel)

/-- The beam whose left support is displaced by 1. -/
def exSettled : BeamDef ℚ :=
  ⟨[exPrismatic .FF], [-1, -1, -1, 0], [some 1, none, none, none], []⟩

/-- **C79 fails** at the padding stations: the left support is displaced by 1 without
rotating, and the first interior station reports just that, but the station before it (which
is what a query at 0 returns) reports deflection 0 and rotation 3. -/
theorem C79_padding_violation :
    ∃ (b : BeamDef ℚ) (solve : Solver ℚ) (res : Result ℚ) (rs : List (MRes ℚ)), solve.Sound ∧
      b.analyze (fun _ => true) solve = .ok res ∧ b.memberResults res 4 (fun _ => []) = .ok rs ∧
      [res.d 0, res.d 1] = [1, 0] ∧
      rs.map (fun r => [r.D 1, r.R 1, r.D 0, r.R 0]) = [[1, 0, 0, 3]] ∧
      resultsAt rs MRes.D 0 = .ok 0 ∧ resultsAt rs MRes.R 0 = .ok 3 := by
  obtain ⟨r, h1, h2⟩ := ok_of_map
    (x := exResults exSettled [1, 0, 0, -3 / 4] 4)
    (f := fun r => ([r.1.d 0, r.1.d 1], r.2.map (fun r => [r.D 1, r.R 1, r.D 0, r.R 0]),
      (resultsAt r.2 MRes.D 0).toOption, (resultsAt r.2 MRes.R 0).toOption))
    (y := ([1, 0], [[1, 0, 0, 3]], some 0, some 3)) (by decide +kernel)
  obtain ⟨h3, h4⟩ := exResults_ok h1
  simp only [Prod.ext_iff] at h2
  exact ⟨_, _, r.1, r.2, trySolver_sound _, h3, h4, h2.1, h2.2.1, ok_of_toOption h2.2.2.1,
    ok_of_toOption h2.2.2.2⟩

end PyCBA
