import Verif.Similar.MirrorLoads
import Verif.Similar.Units
import Verif.Analysis.State

/-!
C105: a beam seen from the other side.
-/

set_option linter.unusedSectionVars false
set_option linter.unusedSimpArgs false

namespace PyCBA

open Matrix Finset

variable {K : Type*} [Field K] [LinearOrder K] [IsStrictOrderedRing K]

/-! ### The mirror image of a beam -/

/-- A row of the load matrix seen from the other side of a beam of `n` spans with lengths
`len` (by span number). -/
def Row.mirror (n : ℕ) (len : ℤ → K) (r : Row K) : Row K :=
  ⟨n + 1 - r.span, r.ltype,
    if r.ltype = 2 then match r.args with
      | P :: a :: _ => [P, len r.span - a]
      | l => l
    else if r.ltype = 3 then match r.args with
      | w :: a :: c :: _ => [w, len r.span - a - c, c]
      | l => l
    else if r.ltype = 4 then match r.args with
      | m :: a :: _ => [-m, len r.span - a]
      | l => l
    else if r.ltype = 5 then match r.args with
      | w1 :: w2 :: a :: c :: _ => [w2, w1, len r.span - a - c, c]
      | [w1, w2, a] => [w2, w1, 0, len r.span - a]
      | [w1, w2] => [w2, w1, 0, len r.span]
      | l => l
    else if r.ltype = 6 then polyFlip (len r.span) r.args
    else r.args⟩

/-- The length of the span with a number. -/
def BeamDef.len (b : BeamDef K) (span : ℤ) : K := (b.members[(span - 1).toNat]?.map Member.L).getD 0

/-- The degree of freedom `p` of a beam with `N` degrees of freedom, counted from the other
side. -/
def flipDof (N p : ℕ) : ℕ := if p % 2 = 0 then N - 2 - p else N - p

/-- `b'` is `b` seen from the other side. -/
structure BeamDef.IsMirror (b b' : BeamDef K) : Prop where
  len : b'.members.length = b.members.length
  members : ∀ i (hi : i < b.members.length) (hi' : b.members.length - 1 - i < b'.members.length),
    b.members[i].IsMirror b'.members[b.members.length - 1 - i]
  restraints : ∀ p < 2 * b.members.length + 2,
    b'.restraints[p]? = b.restraints[flipDof (2 * b.members.length + 2) p]?
  presc : ∀ p < 2 * b.members.length + 2,
    b'.presc[p]? = (b.presc[flipDof (2 * b.members.length + 2) p]?).map
      (Option.map (flipSign p * ·))
  LM : b'.LM = b.LM.map (Row.mirror b.members.length b.len)

/-- A parsed load seen from the other side. -/
def SpanLoad.image (n : ℕ) (len : ℤ → K) (sl : SpanLoad K) : SpanLoad K :=
  ⟨n - 1 - sl.iSpan, sl.load.image (len (sl.iSpan + 1))⟩

theorem parseRow_mirror (n : ℕ) (len : ℤ → K) (r : Row K) :
    parseRow (r.mirror n len) = (parseRow r).map (Option.map (SpanLoad.image n len)) := by
  obtain ⟨span, t, args⟩ := r
  have e : (n : ℤ) + 1 - span - 1 = n - 1 - (span - 1) := by ring
  by_cases h1 : t = 1
  · subst h1
    rcases args with _ | ⟨w, _⟩ <;>
      simp [parseRow, Row.mirror, Except.map, SpanLoad.image, Load.image, Load.mirror, e]
  by_cases h2 : t = 2
  · subst h2
    rcases args with _ | ⟨w, _ | ⟨a, _⟩⟩ <;>
      simp [parseRow, Row.mirror, Except.map, SpanLoad.image, Load.image, Load.mirror, e]
  by_cases h3 : t = 3
  · subst h3
    rcases args with _ | ⟨w, _ | ⟨a, _ | ⟨c, _⟩⟩⟩ <;>
      simp [parseRow, Row.mirror, Except.map, SpanLoad.image, Load.image, Load.mirror, e]
  by_cases h4 : t = 4
  · subst h4
    rcases args with _ | ⟨w, _ | ⟨a, _⟩⟩ <;>
      simp [parseRow, Row.mirror, Except.map, SpanLoad.image, Load.image, Load.mirror, e]
  by_cases h5 : t = 5
  · subst h5
    rcases args with _ | ⟨w, _ | ⟨a, _ | ⟨c, _ | ⟨d, _⟩⟩⟩⟩ <;>
      simp [parseRow, Row.mirror, Except.map, SpanLoad.image, Load.image, Load.mirror, e]
  by_cases h6 : t = 6
  · subst h6
    simp [parseRow, Row.mirror, Except.map, SpanLoad.image, Load.image, Load.mirror, e]
  · simp [parseRow, Row.mirror, h1, h2, h3, h4, h5, h6, Except.map]

theorem parseLM_mirror (n : ℕ) (len : ℤ → K) (rows : List (Row K)) :
    parseLM (rows.map (Row.mirror n len)) = (parseLM rows).map (List.map (SpanLoad.image n len)) := by
  induction rows with
  | nil => rfl
  | cons r rows ih =>
    simp only [List.map_cons, parseLM, parseRow_mirror, ih]
    cases parseRow r with
    | error e => rfl
    | ok o =>
      simp only [Except.map]
      cases parseLM rows with
      | error e => rfl
      | ok ls => cases o <;> rfl

/-- Every load is on a span of the beam and can be mirrored exactly. -/
def BeamDef.LoadsMirror (b : BeamDef K) : Prop :=
  ∀ ls, b.setLoads = .ok ls → ∀ sl ∈ ls, ∃ i, ∃ hi : i < b.members.length,
    sl.iSpan = i ∧ b.members[i].Mirrors sl.load

theorem BeamDef.setLoads_mirror (b b' : BeamDef K) (h : b.IsMirror b') (ls : List (SpanLoad K))
    (hls : b.setLoads = .ok ls) (hm : b.LoadsMirror) :
    b'.setLoads = .ok (ls.map (SpanLoad.image b.members.length b.len)) := by
  have hm' := hm ls hls
  unfold BeamDef.setLoads at hls ⊢
  rw [h.LM, parseLM_mirror, h.len]
  cases hp : parseLM b.LM with
  | error e => simp [hp] at hls
  | ok ls0 =>
    simp only [hp] at hls
    have : ls0 = ls := by
      split at hls
      · exact Except.ok.inj hls
      · cases hls
    subst this
    simp only [Except.map]
    rw [if_pos]
    rw [List.all_eq_true]
    intro sl hsl
    obtain ⟨sl0, h0, rfl⟩ := List.mem_map.1 hsl
    obtain ⟨i, hi, h1, -⟩ := hm' sl0 h0
    obtain ⟨j, ld⟩ := sl0
    simp only at h1
    subst h1
    cases ld <;> simp [SpanLoad.image, Load.image, Load.mirror]
    omega

theorem BeamDef.len_get (b : BeamDef K) (i : ℕ) (hi : i < b.members.length) :
    b.len ((i : ℤ) + 1) = b.members[i].L := by
  simp [BeamDef.len, hi]

theorem Member.refSum_mirror (b : BeamDef K) (i : ℕ) (hi : i < b.members.length) (m' : Member K)
    (hm : b.members[i].IsMirror m') (hf : b.members[i].Fits) (ls : List (SpanLoad K))
    (hl : ∀ sl ∈ ls, sl.iSpan = i → b.members[i].Mirrors sl.load) :
    m'.refSum (b.members.length - 1 - i) (ls.map (SpanLoad.image b.members.length b.len))
      = (b.members[i].refSum i ls).map CNL.mirror := by
  induction ls with
  | nil => simp [Member.refSum, Except.map, CNL.mirror]
  | cons s ls ih =>
    have ih' := ih fun sl h => hl sl (List.mem_cons_of_mem _ h)
    simp only [List.map_cons, Member.refSum]
    by_cases h : s.iSpan = i
    · have h' : (s.image b.members.length b.len).iSpan = ((b.members.length - 1 - i : ℕ) : ℤ) := by
        simp only [SpanLoad.image, h]; omega
      rw [if_pos h', if_pos h]
      have e : (s.image b.members.length b.len).load = s.load.image b.members[i].L := by
        simp only [SpanLoad.image, h, b.len_get i hi]
      rw [e, Member.ref_mirror _ _ hm hf _ (hl s List.mem_cons_self h), ih']
      cases b.members[i].ref s.load with
      | error e => rfl
      | ok c =>
        cases b.members[i].refSum i ls with
        | error e => rfl
        | ok t =>
          simp only [Except.map, CNL.mirror]
          congr 2 <;> ring
    · have h' : ¬ (s.image b.members.length b.len).iSpan = ((b.members.length - 1 - i : ℕ) : ℤ) := by
        simp only [SpanLoad.image]; omega
      rw [if_neg h', if_neg h, ih']

/-- What the two systems have to do with each other. -/
structure System.Mirrored (s s' : System K) : Prop where
  n : s'.n = s.n
  kb : ∀ i < s.n, s'.kb (s.n - 1 - i) = matMirror (s.kb i)
  ref : ∀ i < s.n, s'.ref (s.n - 1 - i) = vecMirror (s.ref i)
  r : ∀ p < s.N, s'.r p = s.r (flipDof s.N p)
  presc : ∀ p < s.N, s'.presc p = (s.presc (flipDof s.N p)).map (flipSign p * ·)

theorem flipDof_lt {N p : ℕ} (hN : N % 2 = 0) (hp : p < N) : flipDof N p < N := by
  unfold flipDof; split_ifs <;> omega

theorem flipDof_flip {N p : ℕ} (hN : N % 2 = 0) (hp : p < N) : flipDof N (flipDof N p) = p := by
  unfold flipDof; split_ifs <;> omega

theorem flipDof_mod {N p : ℕ} (hN : N % 2 = 0) (hp : p < N) : flipDof N p % 2 = p % 2 := by
  unfold flipDof; split_ifs <;> omega

theorem BeamDef.system_mirror (b b' : BeamDef K) (h : b.IsMirror b') (hb : ∀ m ∈ b.members, m.Fits)
    (hl : b.LoadsMirror) (s : System K) (hs : b.system = .ok s) :
    ∃ s', b'.system = .ok s' ∧ System.Mirrored s s' := by
  obtain ⟨hn, hk, ⟨ls, hls, href⟩, hr, hq, hlr, hlq⟩ := BeamDef.system_ok hs
  have hls' := BeamDef.setLoads_mirror b b' h ls hls hl
  set n := b.members.length with hnn
  have hlen := h.len
  rw [← hnn] at hlen
  have hN : s.N = 2 * n + 2 := by simp [System.N, hn]
  have hkk : ∀ i (hi : i < n) (hi' : n - 1 - i < b'.members.length),
      b'.members[n - 1 - i].spanK = .ok (matMirror (s.kb i)) := by
    intro i hi hi'
    rw [Member.spanK_mirror _ _ (hb _ (List.getElem_mem hi)).1.ne' (h.members i hi hi'), hk i hi]
    rfl
  have hrr : ∀ i (hi : i < n) (hi' : n - 1 - i < b'.members.length), ∃ c,
      b'.members[n - 1 - i].refSum (n - 1 - i) (ls.map (SpanLoad.image n b.len)) = .ok c ∧
      c.vec = vecMirror (s.ref i) := by
    intro i hi hi'
    obtain ⟨c, c1, c2⟩ := href i hi
    refine ⟨c.mirror, ?_, ?_⟩
    · rw [Member.refSum_mirror b i hi _ (h.members i hi hi') (hb _ (List.getElem_mem hi)) ls]
      · rw [c1]; rfl
      · intro sl hsl hi2
        obtain ⟨j, hj, j1, j2⟩ := hl ls hls sl hsl
        have : j = i := by rw [j1] at hi2; exact_mod_cast hi2
        subst this
        exact j2
    · rw [c2]
      ext a
      fin_cases a <;> simp [CNL.vec, CNL.mirror, vecMirror, flipSign]
  obtain ⟨refs, hrefs⟩ := mapE_of_ok (f := fun mi : Member K × ℕ =>
    mi.1.refSum mi.2 (ls.map (SpanLoad.image n b.len))) b'.members.zipIdx (by
      intro mi hmi
      obtain ⟨_, h2, h3⟩ := List.mem_zipIdx hmi
      simp only [zero_add, Nat.sub_zero] at h2 h3
      obtain ⟨c, c1, _⟩ := hrr (n - 1 - mi.2) (by omega) (by omega)
      have e : n - 1 - (n - 1 - mi.2) = mi.2 := by omega
      simp only [e] at c1
      exact ⟨c, by rw [h3]; exact c1⟩)
  obtain ⟨ks, hks⟩ := mapE_of_ok (f := Member.spanK) b'.members (by
      intro m hm
      obtain ⟨i, hi, rfl⟩ := List.getElem_of_mem hm
      have := hkk (n - 1 - i) (by omega) (by omega)
      have e : n - 1 - (n - 1 - i) = i := by omega
      simp only [e] at this
      exact ⟨_, this⟩)
  have l1 : 2 * n + 2 ≤ b'.restraints.length := by
    by_contra hc
    have h1 := h.restraints (2 * n + 1) (by omega)
    rw [← hnn] at h1
    rw [List.getElem?_eq_none (by omega), List.getElem?_eq_getElem (by
      have := flipDof_lt (N := 2 * n + 2) (p := 2 * n + 1) (by omega) (by omega)
      omega)] at h1
    cases h1
  have l2 : 2 * n + 2 ≤ b'.presc.length := by
    by_contra hc
    have h1 := h.presc (2 * n + 1) (by omega)
    rw [← hnn] at h1
    rw [List.getElem?_eq_none (by omega), List.getElem?_eq_getElem (by
      have := flipDof_lt (N := 2 * n + 2) (p := 2 * n + 1) (by omega) (by omega)
      omega)] at h1
    cases h1
  obtain ⟨s', hs'⟩ : ∃ s', b'.system = .ok s' := by
    unfold BeamDef.system
    simp only [hls', hrefs, hks]
    rw [if_neg (by omega)]
    exact ⟨_, rfl⟩
  refine ⟨s', hs', ?_⟩
  obtain ⟨hn', hk', ⟨ls', hls2, href'⟩, hr', hq', _, _⟩ := BeamDef.system_ok hs'
  rw [hls'] at hls2
  cases hls2
  have hNn : s.n = n := hn
  refine ⟨by omega, fun i hi => ?_, fun i hi => ?_, fun p hp => ?_, fun p hp => ?_⟩
  · rw [hNn] at hi ⊢
    have h1 := hk' (n - 1 - i) (by omega)
    rw [hkk i hi] at h1
    exact (Except.ok.inj h1).symm
  · rw [hNn] at hi ⊢
    obtain ⟨c, c1, c2⟩ := href' (n - 1 - i) (by omega)
    obtain ⟨c', c1', c2'⟩ := hrr i hi (by omega)
    rw [c1] at c1'
    cases c1'
    rw [c2, c2']
  · rw [hN] at hp ⊢
    rw [hr', hr, List.getD_eq_getElem?_getD, List.getD_eq_getElem?_getD, h.restraints p hp]
  · rw [hN] at hp ⊢
    rw [hq', hq, List.getD_eq_getElem?_getD, List.getD_eq_getElem?_getD, h.presc p hp]
    cases b.presc[flipDof (2 * n + 2) p]? <;> rfl

/-! ### The system is an image -/

theorem flipSign_sq (p : ℕ) : (flipSign p : K) * flipSign p = 1 := by
  unfold flipSign; split_ifs <;> ring

theorem flipSign_congr {p q : ℕ} (h : p % 2 = q % 2) : (flipSign p : K) = flipSign q := by
  unfold flipSign; rw [h]

theorem matMirror_mulVec (k : Mat4 K) (v : Vec4 K) :
    matMirror k *ᵥ vecMirror v = vecMirror (k *ᵥ v) := by
  ext a
  simp only [Matrix.mulVec, dotProduct, vecMirror, matMirror, of_apply, Fin.sum_univ_four]
  simp [flipSign]
  fin_cases a <;> simp <;> ring

theorem blockVec_mirror (n i : ℕ) (hi : i < n) (v : Vec4 K) (p : ℕ) (hp : p < 2 * n + 2) :
    blockVec (2 * (n - 1 - i)) (vecMirror v) p
      = flipSign p * blockVec (2 * i) v (flipDof (2 * n + 2) p) := by
  unfold blockVec
  by_cases h : 2 * (n - 1 - i) ≤ p ∧ p < 2 * (n - 1 - i) + 4
  · have h' : 2 * i ≤ flipDof (2 * n + 2) p ∧ flipDof (2 * n + 2) p < 2 * i + 4 := by
      unfold flipDof; split_ifs <;> omega
    rw [dif_pos h, dif_pos h']
    simp only [vecMirror]
    congr 1
    · apply flipSign_congr
      omega
    · congr 1
      apply Fin.ext
      have hv : (2 : Fin 4).val = 2 := rfl
      simp only [Fin.val_add, hv]
      unfold flipDof
      split_ifs <;> omega
  · have h' : ¬ (2 * i ≤ flipDof (2 * n + 2) p ∧ flipDof (2 * n + 2) p < 2 * i + 4) := by
      unfold flipDof; split_ifs <;> omega
    rw [dif_neg h, dif_neg h', mul_zero]

theorem elemVec_mirror {s : System K} (d d' : ℕ → K)
    (hd : ∀ p < s.N, d' p = flipSign p * d (flipDof s.N p)) (i : ℕ) (hi : i < s.n) :
    elemVec d' (s.n - 1 - i) = vecMirror (elemVec d i) := by
  ext a
  simp only [elemVec, vecMirror]
  have ha := a.2
  rw [hd _ (by simp only [System.N]; omega)]
  congr 1
  · apply flipSign_congr; omega
  · congr 1
    have hv : (2 : Fin 4).val = 2 := rfl
    simp only [Fin.val_add, hv, flipDof, System.N]
    split_ifs <;> omega

theorem System.Mirrored.image {s s' : System K} (h : System.Mirrored s s') :
    System.Image (flipDof s.N) flipSign flipSign s s' := by
  have hN : s'.N = s.N := by simp [System.N, h.n]
  have hN2 : s.N % 2 = 0 := by simp only [System.N]; omega
  have hN3 : s.N = 2 * s.n + 2 := rfl
  have hne : ∀ p, (flipSign p : K) ≠ 0 := by
    intro p; unfold flipSign; split_ifs <;> norm_num
  refine ⟨hN, fun p hp => flipDof_lt hN2 hp, fun p hp => flipDof_flip hN2 hp, hne, hne, ?_, ?_⟩
  · intro d d' hd p hp
    have hfp := flipDof_lt hN2 hp
    simp only [System.residual]
    rw [s'.mulN_assemble _ _ (by rw [hN]; exact hp), s.mulN_assemble _ _ hfp, System.forces_eq,
      System.forces_eq, h.n]
    have e1 : ∀ i ∈ range s.n, blockVec (2 * (s.n - 1 - i)) (s'.kb (s.n - 1 - i) *ᵥ
        elemVec d' (s.n - 1 - i)) p
        = flipSign p * blockVec (2 * i) (s.kb i *ᵥ elemVec d i) (flipDof s.N p) := by
      intro i hi
      have hi := Finset.mem_range.1 hi
      rw [h.kb i hi, elemVec_mirror d d' hd i hi, matMirror_mulVec,
        blockVec_mirror s.n i hi _ p (by omega)]
      rfl
    have e2 : ∀ i ∈ range s.n, blockVec (2 * (s.n - 1 - i)) (s'.ref (s.n - 1 - i)) p
        = flipSign p * blockVec (2 * i) (s.ref i) (flipDof s.N p) := by
      intro i hi
      have hi := Finset.mem_range.1 hi
      rw [h.ref i hi, blockVec_mirror s.n i hi _ p (by omega)]
      rfl
    rw [← Finset.sum_range_reflect (fun i => blockVec (2 * i) (s'.kb i *ᵥ elemVec d' i) p),
      ← Finset.sum_range_reflect (fun i => blockVec (2 * i) (s'.ref i) p),
      Finset.sum_congr rfl e1, Finset.sum_congr rfl e2, ← Finset.mul_sum, ← Finset.mul_sum]
    have e3 : s'.spring p * d' p = flipSign p * (s.spring (flipDof s.N p) * d (flipDof s.N p)) := by
      unfold System.spring
      rw [h.r p hp, hd p hp]
      ring
    rw [e3]
    ring
  · intro p hp
    unfold System.constr
    rw [h.r p hp, h.presc p hp]
    cases s.presc (flipDof s.N p) with
    | some v => rfl
    | none =>
      simp only [Option.map_none]
      split_ifs <;> simp

theorem System.Mirrored.validate {s s' : System K} (h : System.Mirrored s s')
    (hv : s.validate s.forces = true) : s'.validate s'.forces = true := by
  have hN : s'.N = s.N := by simp [System.N, h.n]
  have hN2 : s.N % 2 = 0 := by simp only [System.N]; omega
  have hN3 : s.N = 2 * s.n + 2 := rfl
  unfold System.validate at hv ⊢
  rw [List.all_eq_true] at hv ⊢
  intro p hp
  rw [hN] at hp
  have hp := List.mem_range.1 hp
  have hfp := flipDof_lt hN2 hp
  have := hv (flipDof s.N p) (List.mem_range.2 hfp)
  have e : s'.forces p = flipSign p * s.forces (flipDof s.N p) := by
    rw [System.forces_eq, System.forces_eq, h.n, mul_neg, Finset.mul_sum,
      ← Finset.sum_range_reflect (fun i => blockVec (2 * i) (s'.ref i) p)]
    congr 1
    apply Finset.sum_congr rfl
    intro i hi
    have hi := Finset.mem_range.1 hi
    rw [h.ref i hi, blockVec_mirror s.n i hi _ p (by omega)]
    rfl
  have hne : (flipSign p : K) ≠ 0 := by unfold flipSign; split_ifs <;> norm_num
  simp only [decide_eq_true_eq] at this ⊢
  rw [h.r p hp, h.presc p hp, e]
  simpa [hne] using this

/-- **C105**, well-posedness: if a beam can be analysed, so can its mirror image. -/
theorem C105_completes (b b' : BeamDef K) (h : b.IsMirror b') (hb : ∀ m ∈ b.members, m.Fits)
    (hl : b.LoadsMirror) (s : System K) (hs : b.system = .ok s) (hns : s.Nonsingular)
    (hv : s.validate s.forces = true) :
    ∃ s', b'.system = .ok s' ∧ s'.Nonsingular ∧ s'.validate s'.forces = true := by
  obtain ⟨s', h1, h2⟩ := BeamDef.system_mirror b b' h hb hl s hs
  exact ⟨s', h1, h2.image.nonsingular hns, h2.validate hv⟩

theorem mem_reported {b : BeamDef K} {s : System K} {solve : Solver K} {res : Result K}
    (hs : b.system = .ok s) (hsd : solve.Sound) (h : s.analyze solve = .ok res) (p : ℕ) (v : K) :
    (p, v) ∈ b.reported res ↔ p < s.N ∧ ((s.r p < 0 ∧ v = s.residual res.d p) ∨
      (0 < s.r p ∧ v = -s.r p * res.d p)) := by
  obtain ⟨_, a2, a3, _⟩ := System.analyze_ok hsd h
  obtain ⟨hn, _, _, hr, _⟩ := BeamDef.system_ok hs
  have hN : s.N = 2 * b.members.length + 2 := by simp [System.N, hn]
  have zipself : ∀ (l : List ℕ) (g : ℕ → K), l.zip (l.map g) = l.map fun p => (p, g p) := by
    intro l g
    induction l with
    | nil => rfl
    | cons a l ih => simp [ih]
  have q2 : b.reported res
        = ((List.range s.N).filter fun i => s.r i < 0).map (fun p => (p, s.residual res.d p))
          ++ ((List.range s.N).filter fun i => 0 < s.r i).map (fun p => (p, -s.r p * res.d p)) := by
      unfold BeamDef.reported
      rw [← hN, a2, a3, System.reactions, System.springForces]
      simp only [← hr, zipself]
  rw [q2, List.mem_append, List.mem_map, List.mem_map]
  constructor
  · rintro (⟨q, hq, he⟩ | ⟨q, hq, he⟩)
    · cases he
      have := List.mem_filter.1 hq
      exact ⟨List.mem_range.1 this.1, Or.inl ⟨by simpa using this.2, rfl⟩⟩
    · cases he
      have := List.mem_filter.1 hq
      exact ⟨List.mem_range.1 this.1, Or.inr ⟨by simpa using this.2, rfl⟩⟩
  · rintro ⟨hp, ⟨h1, rfl⟩ | ⟨h1, rfl⟩⟩
    · exact Or.inl ⟨p, List.mem_filter.2 ⟨List.mem_range.2 hp, by simpa using h1⟩, rfl⟩
    · exact Or.inr ⟨p, List.mem_filter.2 ⟨List.mem_range.2 hp, by simpa using h1⟩, rfl⟩

/-- **C105**: the results of a stable beam seen from the other side: deflections and vertical
reactions are the same, rotations and couples change sign, and the end forces of a member are
those of its image with the ends exchanged. -/
theorem C105_analysis (b b' : BeamDef K) (h : b.IsMirror b') (hb : ∀ m ∈ b.members, m.Fits)
    (hl : b.LoadsMirror) (stable stable' : System K → Bool) (solve solve' : Solver K)
    (hs : solve.Sound) (hs' : solve'.Sound) (res res' : Result K)
    (ha : b.analyze stable solve = .ok res) (ha' : b'.analyze stable' solve' = .ok res')
    (hns : ∀ s, b.system = .ok s → s.Nonsingular) :
    (∀ j ≤ b.members.length, res'.d (2 * (b.members.length - j)) = res.d (2 * j) ∧
      res'.d (2 * (b.members.length - j) + 1) = -res.d (2 * j + 1)) ∧
    (∀ j ≤ b.members.length, ∀ v,
      ((2 * (b.members.length - j), v) ∈ b'.reported res' ↔ (2 * j, v) ∈ b.reported res) ∧
      ((2 * (b.members.length - j) + 1, -v) ∈ b'.reported res' ↔ (2 * j + 1, v) ∈ b.reported res)) ∧
    ∀ i < b.members.length,
      res'.fmbr (b.members.length - 1 - i) 0 = res.fmbr i 2 ∧
      res'.fmbr (b.members.length - 1 - i) 1 = -res.fmbr i 3 ∧
      res'.fmbr (b.members.length - 1 - i) 2 = res.fmbr i 0 ∧
      res'.fmbr (b.members.length - 1 - i) 3 = -res.fmbr i 1 := by
  obtain ⟨s, h1, h2⟩ := BeamDef.analyze_ok ha
  obtain ⟨s', h1', h2'⟩ := BeamDef.analyze_ok ha'
  obtain ⟨t, ht, hu⟩ := BeamDef.system_mirror b b' h hb hl s h1
  rw [h1'] at ht
  cases ht
  obtain ⟨a1, a2, a3, a4, _⟩ := System.analyze_ok hs h2
  obtain ⟨b1, b2, b3, b4, _⟩ := System.analyze_ok hs' h2'
  obtain ⟨hn, _, _, hr, _⟩ := BeamDef.system_ok h1
  have hN : s.N = 2 * b.members.length + 2 := by simp [System.N, hn]
  have hN' : s'.N = s.N := by simp [System.N, hu.n]
  obtain ⟨c1, c2⟩ := hu.image.results (hns s h1) a1 b1
  set n := b.members.length with hnn
  have f0 : ∀ j ≤ n, flipDof s.N (2 * (n - j)) = 2 * j := by
    intro j hj; unfold flipDof; split_ifs <;> omega
  have f1 : ∀ j ≤ n, flipDof s.N (2 * (n - j) + 1) = 2 * j + 1 := by
    intro j hj; unfold flipDof; split_ifs <;> omega
  have g0 : ∀ j, (flipSign (2 * (n - j)) : K) = 1 := by
    intro j; simp [flipSign]
  have g1 : ∀ j, (flipSign (2 * (n - j) + 1) : K) = -1 := by
    intro j; unfold flipSign; rw [if_neg (by omega)]
  refine ⟨fun j hj => ⟨?_, ?_⟩, fun j hj v => ⟨?_, ?_⟩, ?_⟩
  · rw [c1 _ (by omega), f0 j hj, g0]; ring
  · rw [c1 _ (by omega), f1 j hj, g1]; ring
  · rw [mem_reported h1' hs' h2', mem_reported h1 hs h2, hN', hu.r _ (by omega),
      c2 _ (by omega), c1 _ (by omega), f0 j hj, g0]
    simp only [one_mul]
    constructor
    · rintro ⟨_, h⟩; exact ⟨by omega, h⟩
    · rintro ⟨_, h⟩; exact ⟨by omega, h⟩
  · rw [mem_reported h1' hs' h2', mem_reported h1 hs h2, hN', hu.r _ (by omega),
      c2 _ (by omega), c1 _ (by omega), f1 j hj, g1]
    have e1 : ∀ w : K, -v = -1 * w ↔ v = w := by intro w; rw [neg_one_mul, neg_inj]
    have e2 : ∀ r w : K, -v = -r * (-1 * w) ↔ v = -r * w := by
      intro r w
      constructor
      · intro h; linear_combination -h
      · intro h; linear_combination -h
    simp only [e1, e2]
    constructor
    · rintro ⟨_, h⟩; exact ⟨by omega, h⟩
    · rintro ⟨_, h⟩; exact ⟨by omega, h⟩
  · intro i hi
    have hi' : i < s.n := by omega
    have e : res'.fmbr (n - 1 - i) = vecMirror (res.fmbr i) := by
      rw [a4, b4]
      have : n = s.n := hn.symm
      rw [this]
      simp only [System.endForces]
      rw [hu.kb i hi', hu.ref i hi', elemVec_mirror res.d res'.d c1 i hi', matMirror_mulVec]
      ext a
      simp only [Pi.add_apply, vecMirror]
      ring
    rw [e]
    simp [vecMirror, flipSign]

end PyCBA
