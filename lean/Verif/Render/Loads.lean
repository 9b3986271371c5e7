import Verif.Render.Supports

/-!
C95: the schematic shows the loads that are analysed.
-/

set_option linter.unusedSectionVars false
set_option linter.unusedSimpArgs false

namespace PyCBA

/-! ### What a drawing says -/

/-- The intensity a distributed load is drawn with at coordinate `x` of the beam. -/
noncomputable def DrawnDist.at (d : DrawnDist ℝ) (x : ℝ) : ℝ :=
  if d.x0 ≤ x ∧ x ≤ d.x1 then d.w0 + (d.w1 - d.w0) * ((x - d.x0) / (d.x1 - d.x0)) else 0

/-- The intensity drawn at `x`. -/
noncomputable def DrawnLoads.at (t : DrawnLoads ℝ) (x : ℝ) : ℝ := (t.dist.map fun d => d.at x).sum

/-- The load is on the span; a trapezoidal load may overhang its right end. -/
def Load.Drawable (L : ℝ) : Load ℝ → Prop
  | .pudl _ a c => 0 ≤ a ∧ 0 ≤ c ∧ a + c ≤ L
  | .trapez _ _ a c => 0 ≤ a ∧ ∀ c', c = some c' → 0 < c'
  | _ => True

/-! ### The loop -/

variable {K : Type*} [Field K] [LinearOrder K] [IsStrictOrderedRing K]

theorem drawLoad_append (off len : K) (l : SpanLoad K) (t : DrawnLoads K) :
    (drawLoad off len l t).dist = t.dist ++ (drawLoad off len l ⟨[], [], [], []⟩).dist ∧
    (drawLoad off len l t).points = t.points ++ (drawLoad off len l ⟨[], [], [], []⟩).points ∧
    (drawLoad off len l t).moments = t.moments ++ (drawLoad off len l ⟨[], [], [], []⟩).moments ∧
    (drawLoad off len l t).skipped = t.skipped ++ (drawLoad off len l ⟨[], [], [], []⟩).skipped := by
  unfold drawLoad
  cases l.load <;> simp
  split <;> simp

/-- The start and the length of an existing span. -/
theorem spanPlace_ok (b : BeamDef K) (i : ℤ) (h0 : 0 ≤ i) (h1 : i < b.members.length) :
    spanPlace b i = .ok (b.nodeX i.toNat, (b.members.map Member.L).getD i.toNat 0) := by
  unfold spanPlace NL.pyIndex
  rw [if_pos ⟨h0, by push_cast; omega⟩, if_pos ⟨h0, h1⟩]

/-- The drawing of one load. -/
def drawOne (b : BeamDef K) (l : SpanLoad K) : DrawnLoads K :=
  drawLoad (b.nodeX l.iSpan.toNat) ((b.members.map Member.L).getD l.iSpan.toNat 0) l ⟨[], [], [], []⟩

theorem drawLoop_ok (b : BeamDef K) (ls : List (SpanLoad K)) :
    ∀ (_ : ∀ l ∈ ls, 0 ≤ l.iSpan ∧ l.iSpan < b.members.length) (t : DrawnLoads K),
    ∃ t', drawLoop b ls t = .ok t' ∧
      t'.dist = t.dist ++ ls.flatMap (fun l => (drawOne b l).dist) ∧
      t'.points = t.points ++ ls.flatMap (fun l => (drawOne b l).points) ∧
      t'.moments = t.moments ++ ls.flatMap (fun l => (drawOne b l).moments) ∧
      t'.skipped = t.skipped ++ ls.flatMap (fun l => (drawOne b l).skipped) := by
  induction ls with
  | nil => intro _ t; exact ⟨t, rfl, by simp⟩
  | cons l ls ih =>
    intro h t
    obtain ⟨h0, h1⟩ := h l List.mem_cons_self
    rw [drawLoop, spanPlace_ok b _ h0 h1]
    obtain ⟨t', e, a1, a2, a3, a4⟩ := ih (fun q hq => h q (List.mem_cons_of_mem _ hq))
      (drawLoad (b.nodeX l.iSpan.toNat) ((b.members.map Member.L).getD l.iSpan.toNat 0) l t)
    obtain ⟨c1, c2, c3, c4⟩ := drawLoad_append (b.nodeX l.iSpan.toNat)
      ((b.members.map Member.L).getD l.iSpan.toNat 0) l t
    refine ⟨t', e, ?_, ?_, ?_, ?_⟩
    · rw [a1, c1, List.flatMap_cons, List.append_assoc]; rfl
    · rw [a2, c2, List.flatMap_cons, List.append_assoc]; rfl
    · rw [a3, c3, List.flatMap_cons, List.append_assoc]; rfl
    · rw [a4, c4, List.flatMap_cons, List.append_assoc]; rfl

/-! ### One load -/

/-- The intensity drawn for one load on its own span. -/
theorem drawLoad_at_own (off len x : ℝ) (l : SpanLoad ℝ) (hd : l.load.Drawable len)
    (h0 : off < x) (h1 : x < off + len) :
    ((drawLoad off len l ⟨[], [], [], []⟩).dist.map fun d => d.at x).sum
      = l.load.intensity len (x - off) := by
  unfold drawLoad
  cases hl : l.load with
  | udl w =>
    simp only [List.nil_append, List.map_cons, List.map_nil, List.sum_cons, List.sum_nil, add_zero,
      DrawnDist.at, Load.intensity]
    rw [if_pos ⟨h0.le, h1.le⟩, sub_self, zero_mul, add_zero]
  | pudl w a c =>
    simp only [List.nil_append, List.map_cons, List.map_nil, List.sum_cons, List.sum_nil, add_zero,
      DrawnDist.at, Load.intensity]
    by_cases h : a ≤ x - off ∧ x - off ≤ a + c
    · rw [if_pos h, if_pos ⟨by linarith [h.1], by linarith [h.2]⟩, sub_self, zero_mul, add_zero]
    · rw [if_neg h, if_neg]
      intro g
      exact h ⟨by linarith [g.1], by linarith [g.2]⟩
  | trapez w1 w2 a c =>
    rw [hl] at hd
    obtain ⟨ha, hc⟩ := hd
    have key : ∀ c0 : ℝ, c0 = c.getD (len - a) →
        resolveTrapez w1 w2 a c len
          = if len ≤ a ∨ c0 ≤ 0 then (w1, w2, 0, a, 0)
            else if len < a + c0 then
              (w1, w1 + (w2 - w1) * (len - a) / c0, w1 + (w2 - w1) * (len - a) / c0 - w1, a, len - a)
            else (w1, w2, w2 - w1, a, c0) := by
      intro c0 e
      subst e
      cases c <;> rfl
    have kc : c.getD (len - a) ≤ 0 → len ≤ a := by
      cases hcc : c with
      | none => intro h; simpa using h
      | some c' =>
        intro h
        have := hc c' hcc
        simp only [Option.getD_some] at h
        linarith
    simp only [key _ rfl, Load.intensity]
    generalize c.getD (len - a) = c0 at kc
    by_cases h2 : len ≤ a ∨ c0 ≤ 0
    · have h3 : len ≤ a := h2.elim id kc
      rw [if_pos h2]
      simp only [lt_irrefl, ↓reduceIte, List.map_nil, List.sum_nil]
      rw [if_neg]
      rintro ⟨g, -⟩
      linarith
    · rw [if_neg h2]
      have h3 : a < len := by
        by_contra g
        exact h2 (Or.inl (not_lt.1 g))
      have h4 : 0 < c0 := by
        by_contra g
        exact h2 (Or.inr (not_lt.1 g))
      by_cases h5 : len < a + c0
      · rw [if_pos h5]
        have h6 : 0 < len - a := by linarith
        simp only [h6, ↓reduceIte, List.nil_append, List.map_cons, List.map_nil, List.sum_cons,
          List.sum_nil, add_zero, DrawnDist.at]
        by_cases h : a ≤ x - off
        · rw [if_pos (show off + a ≤ x ∧ x ≤ off + a + (len - a) from ⟨by linarith, by linarith⟩),
            if_pos (show a ≤ x - off ∧ x - off ≤ a + c0 from ⟨h, by linarith⟩)]
          have e1 : off + a + (len - a) - (off + a) = len - a := by ring
          rw [e1]
          field_simp
          ring
        · rw [if_neg (fun g => h (by linarith [g.1])), if_neg (fun g => h (by linarith [g.1]))]
      · rw [if_neg h5]
        simp only [h4, ↓reduceIte, List.nil_append, List.map_cons, List.map_nil, List.sum_cons,
          List.sum_nil, add_zero, DrawnDist.at]
        by_cases h : a ≤ x - off ∧ x - off ≤ a + c0
        · rw [if_pos h, if_pos ⟨by linarith [h.1], by linarith [h.2]⟩]
          have e1 : off + a + c0 - (off + a) = c0 := by ring
          have e2 : x - (off + a) = x - off - a := by ring
          rw [e1, e2]
        · rw [if_neg h, if_neg]
          intro g
          exact h ⟨by linarith [g.1], by linarith [g.2]⟩
  | pl P a => simp [Load.intensity]
  | ml m a => simp [Load.intensity]
  | ic p e => simp [Load.intensity]
  | mamb p q => simp [Load.intensity]

/-- A load is drawn on its own span only. -/
theorem drawLoad_at_other (off len x : ℝ) (l : SpanLoad ℝ) (hd : l.load.Drawable len)
    (h : x < off ∨ off + len < x) :
    ((drawLoad off len l ⟨[], [], [], []⟩).dist.map fun d => d.at x).sum = 0 := by
  unfold drawLoad
  cases hl : l.load with
  | udl w =>
    simp only [List.nil_append, List.map_cons, List.map_nil, List.sum_cons, List.sum_nil, add_zero,
      DrawnDist.at]
    rw [if_neg]
    rintro ⟨g1, g2⟩
    rcases h with h | h <;> linarith
  | pudl w a c =>
    rw [hl] at hd
    obtain ⟨a1, a2, a3⟩ := hd
    simp only [List.nil_append, List.map_cons, List.map_nil, List.sum_cons, List.sum_nil, add_zero,
      DrawnDist.at]
    rw [if_neg]
    rintro ⟨g1, g2⟩
    rcases h with h | h <;> linarith
  | trapez w1 w2 a c =>
    rw [hl] at hd
    obtain ⟨ha, hc⟩ := hd
    have hb : (resolveTrapez w1 w2 a c len).2.2.2.1 = a ∧ (0 < (resolveTrapez w1 w2 a c len).2.2.2.2 →
        a + (resolveTrapez w1 w2 a c len).2.2.2.2 ≤ len) := by
      unfold resolveTrapez
      simp only
      split_ifs with q1 q2
      · simp
      · simp
      · simp only [true_and]
        intro _
        linarith
    simp only
    split_ifs with q
    · simp only [List.nil_append, List.map_cons, List.map_nil, List.sum_cons, List.sum_nil, add_zero,
        DrawnDist.at]
      rw [if_neg]
      rw [hb.1]
      have := hb.2 q
      rintro ⟨g1, g2⟩
      rcases h with h | h <;> linarith
    · simp
  | pl P a => simp
  | ml m a => simp
  | ic p e => simp
  | mamb p q => simp

theorem flatMap_map_sum {α β : Type*} (ls : List α) (f : α → List β) (g : β → ℝ) :
    ((ls.flatMap f).map g).sum = (ls.map fun l => ((f l).map g).sum).sum := by
  induction ls with
  | nil => rfl
  | cons a l ih => simp [List.flatMap_cons, ih]

theorem own_map_sum (ls : List (SpanLoad ℝ)) (j : ℕ) (g : Load ℝ → ℝ) :
    ((ownLoads j ls).map g).sum = (ls.map fun l => if l.iSpan = (j : ℤ) then g l.load else 0).sum := by
  unfold ownLoads
  induction ls with
  | nil => rfl
  | cons a l ih =>
    by_cases h : a.iSpan = (j : ℤ)
    · rw [List.filter_cons_of_pos (by simpa using h)]
      simp only [List.map_cons, List.sum_cons, ih, if_pos h]
    · rw [List.filter_cons_of_neg (by simpa using h)]
      simp only [List.map_cons, List.sum_cons, ih, if_neg h, zero_add]

/-- **C95**: if every load is on a span of the beam, and no partial uniform load overhangs
its span, the schematic can be drawn; within every span the intensity drawn is that of the
loads of the span; the point loads and couples are drawn in order at their places; and
only imposed curvatures are left out.  The other loads: `C95_overhang_violation`,
`C95_beyond_violation`, `C95_span_zero_violation`. -/
theorem C95_loads_partial (b : BeamDef ℝ) (ls : List (SpanLoad ℝ)) (hls : parseLM b.LM = .ok ls)
    (hpos : ∀ m ∈ b.members, 0 < m.L)
    (hsp : ∀ l ∈ ls, 0 ≤ l.iSpan ∧ l.iSpan < b.members.length)
    (hd : ∀ l ∈ ls, ∀ j (hj : j < b.members.length), l.iSpan = (j : ℤ) →
      l.load.Drawable b.members[j].L) :
    ∃ t, inferLoads b = .ok t ∧
      (∀ j (hj : j < b.members.length) (x : ℝ), b.nodeX j < x → x < b.nodeX (j + 1) →
        t.at x = ((ownLoads j ls).map fun l => l.intensity b.members[j].L (x - b.nodeX j)).sum) ∧
      t.points.map (fun p => (p.v, p.x))
        = ls.flatMap (fun l => l.load.forces.map fun p => (p.1, b.nodeX l.iSpan.toNat + p.2)) ∧
      t.moments.map (fun p => (p.v, p.x))
        = ls.flatMap (fun l => l.load.couplesAt.map fun p => (p.1, b.nodeX l.iSpan.toNat + p.2)) ∧
      (∀ l ∈ t.skipped, l ∈ ls ∧ ∃ k e, l.load = .ic k e) := by
  obtain ⟨t, e, h1, h2, h3, h4⟩ := drawLoop_ok b ls hsp ⟨[], [], [], []⟩
  refine ⟨t, ?_, ?_, ?_, ?_, ?_⟩
  · unfold inferLoads
    rw [hls]
    exact e
  · intro j hj x hx0 hx1
    unfold DrawnLoads.at
    rw [h1, List.nil_append, flatMap_map_sum, own_map_sum]
    congr 1
    apply List.map_congr_left
    intro l hl
    obtain ⟨a0, a1⟩ := hsp l hl
    obtain ⟨i, hi⟩ := Int.eq_ofNat_of_zero_le a0
    have hil : i < b.members.length := by omega
    have hdr := hd l hl i hil hi
    have hto : l.iSpan.toNat = i := by omega
    have hlen : (b.members.map Member.L).getD i 0 = b.members[i].L := by
      rw [List.getD_eq_getElem _ _ (by simpa using hil)]
      simp
    unfold drawOne
    rw [hto, hlen]
    by_cases hij : i = j
    · subst hij
      rw [if_pos hi]
      refine drawLoad_at_own _ _ _ _ hdr hx0 ?_
      rw [← b.nodeX_succ i hil]
      exact hx1
    · rw [if_neg (by omega)]
      refine drawLoad_at_other _ _ _ _ hdr ?_
      rw [← b.nodeX_succ i hil]
      rcases lt_or_gt_of_ne hij with g | g
      · right
        refine lt_of_le_of_lt ?_ hx0
        exact b.nodeX_mono hpos (i + 1) j (Nat.succ_le_of_lt g) (by omega)
      · left
        refine lt_of_lt_of_le hx1 ?_
        exact b.nodeX_mono hpos (j + 1) i (Nat.succ_le_of_lt g) (by omega)
  · rw [h2, List.nil_append, List.map_flatMap]
    congr 1
    funext l
    unfold drawOne drawLoad
    cases l.load <;> simp [Load.forces]
    split <;> simp
  · rw [h3, List.nil_append, List.map_flatMap]
    congr 1
    funext l
    unfold drawOne drawLoad
    cases l.load <;> simp [Load.couplesAt]
    split <;> simp
  · intro l hl
    rw [h4, List.nil_append, List.mem_flatMap] at hl
    obtain ⟨q, hq, hl⟩ := hl
    unfold drawOne drawLoad at hl
    cases hql : q.load <;> rw [hql] at hl <;> simp at hl
    · split at hl <;> simp at hl
    · subst hl
      exact ⟨hq, _, _, hql⟩

/-- **C95 fails** for a partial uniform load that overhangs its span: it is drawn on the
next span, which the analysis does not load. -/
theorem C95_overhang_violation :
    ∃ (b : BeamDef ℝ) (ls : List (SpanLoad ℝ)) (t : DrawnLoads ℝ), b.setLoads = .ok ls ∧
      inferLoads b = .ok t ∧ b.members.length = 2 ∧ b.nodeX 1 = 2 ∧ b.nodeX 2 = 4 ∧
      ownLoads 1 ls = [] ∧ t.at 3 = 1 := by
  refine ⟨⟨[⟨.const 1, 2, .FF, none⟩, ⟨.const 1, 2, .FF, none⟩], [-1, 0, -1, 0, -1, 0],
    List.replicate 6 none, [⟨1, 3, [1, 1, 3]⟩]⟩, [⟨0, .pudl 1 1 3⟩],
    ⟨[⟨0, 0 + 1, 0 + 1 + 3, 1, 1⟩], [], [], []⟩, ?_, ?_, rfl, ?_, ?_, ?_, ?_⟩
  · simp [BeamDef.setLoads, parseLM, parseRow]
  · simp [inferLoads, parseLM, parseRow, drawLoop, spanPlace, NL.pyIndex, drawLoad, BeamDef.nodeX]
  · simp [BeamDef.nodeX]
  · norm_num [BeamDef.nodeX]
  · simp [ownLoads]
  · norm_num [DrawnLoads.at, DrawnDist.at]

/-- **C95 fails** for a load on a span beyond the beam: the analysis ignores the load; the
schematic cannot be drawn. -/
theorem C95_beyond_violation (m : Member K) :
    ∃ (b : BeamDef K) (ls : List (SpanLoad K)), b.members = [m] ∧ b.setLoads = .ok ls ∧ ls ≠ [] ∧
      (∀ j < b.members.length, ownLoads j ls = []) ∧ inferLoads b = .error .indexError := by
  refine ⟨⟨[m], [-1, 0, -1, 0], List.replicate 4 none, [⟨2, 1, [1]⟩]⟩, [⟨1, .udl 1⟩], rfl, ?_, by simp,
    ?_, ?_⟩
  · simp [BeamDef.setLoads, parseLM, parseRow]
  · intro j hj
    simp only [List.length_cons, List.length_nil, zero_add, Nat.lt_one_iff] at hj
    subst hj
    simp [ownLoads]
  · simp [inferLoads, parseLM, parseRow, drawLoop, spanPlace, NL.pyIndex]

/-- **C95 fails** for a load on span 0: the analysis ignores it; the schematic shows it
beyond the right end of the beam. -/
theorem C95_span_zero_violation (m : Member K) (hm : 0 < m.L) :
    ∃ (b : BeamDef K) (ls : List (SpanLoad K)) (t : DrawnLoads K), b.members = [m] ∧
      b.setLoads = .ok ls ∧ (∀ j < b.members.length, ownLoads j ls = []) ∧
      inferLoads b = .ok t ∧ ∃ p ∈ t.points, b.nodeX 1 < p.x := by
  refine ⟨⟨[m], [-1, 0, -1, 0], List.replicate 4 none, [⟨0, 2, [1, m.L]⟩]⟩, [⟨-1, .pl 1 m.L⟩],
    ⟨[], [⟨-1, m.L + m.L, 1⟩], [], []⟩, rfl, ?_, ?_, ?_, ?_⟩
  · simp [BeamDef.setLoads, parseLM, parseRow]
  · intro j hj
    simp only [List.length_cons, List.length_nil, zero_add, Nat.lt_one_iff] at hj
    subst hj
    simp [ownLoads]
  · simp [inferLoads, parseLM, parseRow, drawLoop, spanPlace, NL.pyIndex, drawLoad, BeamDef.nodeX]
  · refine ⟨_, List.mem_singleton_self _, ?_⟩
    simp only [BeamDef.nodeX, List.take_succ_cons, List.take_zero, List.map_cons, List.map_nil,
      List.sum_cons, List.sum_nil, add_zero]
    linarith

-- C95: two spans with a trapezoidal load that overhangs its span, a point load and a couple
example : ∃ (b : BeamDef ℝ) (ls : List (SpanLoad ℝ)), parseLM b.LM = .ok ls ∧
    ls = [⟨0, .trapez 1 3 1 (some 4)⟩, ⟨1, .pl 5 1⟩, ⟨1, .ml 7 2⟩] ∧
    (∀ m ∈ b.members, 0 < m.L) ∧ b.members.length = 2 ∧
    (∀ l ∈ ls, 0 ≤ l.iSpan ∧ l.iSpan < b.members.length) ∧
    (∀ l ∈ ls, ∀ j (hj : j < b.members.length), l.iSpan = (j : ℤ) →
      l.load.Drawable b.members[j].L) := by
  refine ⟨⟨[⟨.const 1, 2, .FF, none⟩, ⟨.const 1, 3, .FF, none⟩], [-1, 0, -1, 0, -1, 0],
    List.replicate 6 none, [⟨1, 5, [1, 3, 1, 4]⟩, ⟨2, 2, [5, 1]⟩, ⟨2, 4, [7, 2]⟩]⟩, _, ?_, rfl, ?_, rfl,
    ?_, ?_⟩
  · simp [parseLM, parseRow]
  · simp
  · simp
  · simp [Load.Drawable]

end PyCBA
