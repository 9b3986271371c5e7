import Verif.Nonlinear.Model
import Verif.Analysis.Lemmas
import Mathlib.Data.List.GetD
import Mathlib.Tactic.Linarith
import Mathlib.Tactic.FieldSimp
import Mathlib.Tactic.Ring

/-!
C67: the mesh of the nonlinear analysis.
-/

set_option linter.unusedSectionVars false
set_option linter.unusedSimpArgs false

namespace PyCBA

open Matrix

variable {K : Type*} [Field K] [LinearOrder K] [IsStrictOrderedRing K]

/-! ### `argmin` -/

theorem foldl_min_le (l : List K) (a : K) : l.foldl min a ≤ a ∧ ∀ b ∈ l, l.foldl min a ≤ b := by
  induction l generalizing a with
  | nil => simp
  | cons x l ih =>
    simp only [List.foldl_cons]
    obtain ⟨h1, h2⟩ := ih (min a x)
    refine ⟨h1.trans (min_le_left _ _), ?_⟩
    intro b hb
    rcases List.mem_cons.1 hb with rfl | hb
    · exact h1.trans (min_le_right _ _)
    · exact h2 b hb

theorem foldl_min_mem (l : List K) (a : K) : l.foldl min a = a ∨ l.foldl min a ∈ l := by
  induction l generalizing a with
  | nil => simp
  | cons x l ih =>
    simp only [List.foldl_cons]
    rcases ih (min a x) with h | h
    · rcases min_choice a x with h' | h'
      · left; rw [h, h']
      · right; rw [h, h']; simp
    · right; exact List.mem_cons_of_mem _ h

/-- `np.argmin(np.abs(xs - x))` is a valid index, and no entry is closer. -/
theorem argminAbs_spec (xs : List K) (x : K) (h : xs ≠ []) :
    ∃ hi : argminAbs xs x < xs.length, ∀ k (hk : k < xs.length), |xs[argminAbs xs x] - x| ≤ |xs[k] - x| := by
  set ds := xs.map fun y => |y - x| with hds
  have hne : ds ≠ [] := by simpa [hds] using h
  have hmem : ds.foldl min (ds.headD 0) ∈ ds := by
    rcases foldl_min_mem ds (ds.headD 0) with h1 | h1
    · rw [h1]
      cases hd : ds with
      | nil => exact absurd hd hne
      | cons a l => simp
    · exact h1
  have hi : argminAbs xs x < xs.length := by
    have := List.idxOf_lt_length_of_mem hmem
    simpa [argminAbs, hds] using this
  refine ⟨hi, fun k hk => ?_⟩
  have h1 : ds[argminAbs xs x]'(by simpa [hds] using hi) = ds.foldl min (ds.headD 0) :=
    List.getElem_idxOf (List.idxOf_lt_length_of_mem hmem)
  have h2 := (foldl_min_le ds (ds.headD 0)).2 (ds[k]'(by simpa [hds] using hk)) (List.getElem_mem _)
  rw [← h1] at h2
  simpa [hds] using h2

/-! ### The mesh -/

variable [FloorRing K]

/-- Number of elements before span `i`. -/
def meshOff (ms : K) (Ls : List K) (i : ℕ) : ℕ := ((Ls.take i).map (meshCount ms)).sum

theorem meshCount_pos (ms L : K) : 0 < meshCount ms L := by
  unfold meshCount
  omega

theorem spanStart_succ (Ls : List K) {i : ℕ} (hi : i < Ls.length) :
    spanStart Ls (i + 1) = spanStart Ls i + Ls[i] := by
  rw [spanStart, spanStart, List.take_add_one, List.getElem?_eq_getElem hi, Option.toList_some,
    List.sum_append, List.sum_singleton]

theorem meshOff_succ (ms : K) (Ls : List K) {i : ℕ} (hi : i < Ls.length) :
    meshOff ms Ls (i + 1) = meshOff ms Ls i + meshCount ms Ls[i] := by
  rw [meshOff, meshOff, List.take_add_one, List.getElem?_eq_getElem hi, Option.toList_some,
    List.map_append, List.sum_append, List.map_singleton, List.sum_singleton]

theorem buildMesh_snoc (ms : K) (Ls : List K) (L : K) :
    buildMesh ms (Ls ++ [L]) = meshStep ms (buildMesh ms Ls) (L, Ls.length) := by
  unfold buildMesh
  rw [List.zipIdx_append, List.foldl_append]
  simp

/-- Everything about the mesh lists. -/
theorem buildMesh_spec (ms : K) (Ls : List K) :
    (buildMesh ms Ls).elemL.length = meshOff ms Ls Ls.length ∧
    (buildMesh ms Ls).nodes.length = meshOff ms Ls Ls.length + 1 ∧
    (buildMesh ms Ls).n2s.length = meshOff ms Ls Ls.length + 1 ∧
    (buildMesh ms Ls).nodes.getLastD 0 = Ls.sum ∧
    (buildMesh ms Ls).nodes.getD 0 0 = 0 ∧ (buildMesh ms Ls).n2s.getD 0 0 = 0 ∧
    ∀ i (hi : i < Ls.length), ∀ j < meshCount ms Ls[i],
      (buildMesh ms Ls).nodes.getD (meshOff ms Ls i + j + 1) 0
        = spanStart Ls i + ((j : K) + 1) * (Ls[i] / meshCount ms Ls[i]) ∧
      (buildMesh ms Ls).elemL.getD (meshOff ms Ls i + j) 0 = Ls[i] / meshCount ms Ls[i] ∧
      (buildMesh ms Ls).n2s.getD (meshOff ms Ls i + j + 1) 0 = i := by
  induction Ls using List.reverseRecOn with
  | nil => simp [buildMesh, meshOff]
  | append_singleton Ls L ih =>
    obtain ⟨h1, h2, h3, h4, h5, h6, h7⟩ := ih
    have hoff : ∀ i ≤ Ls.length, meshOff ms (Ls ++ [L]) i = meshOff ms Ls i := by
      intro i hi
      rw [meshOff, meshOff, List.take_append_of_le_length hi]
    have hst : ∀ i ≤ Ls.length, spanStart (Ls ++ [L]) i = spanStart Ls i := by
      intro i hi
      rw [spanStart, spanStart, List.take_append_of_le_length hi]
    have hoffn : meshOff ms (Ls ++ [L]) (Ls ++ [L]).length
        = meshOff ms Ls Ls.length + meshCount ms L := by
      rw [List.length_append, List.length_singleton, meshOff_succ ms _ (by simp), hoff _ le_rfl]
      simp
    have hc := meshCount_pos ms L
    have hcK : (meshCount ms L : K) ≠ 0 := by exact_mod_cast hc.ne'
    rw [buildMesh_snoc, hoffn]
    set m := buildMesh ms Ls with hm
    simp only [meshStep, h4]
    refine ⟨by simp [h1], by simp [h2]; omega, by simp [h3]; omega, ?_, ?_, ?_, ?_⟩
    · obtain ⟨e, he⟩ : ∃ e, meshCount ms L = e + 1 := ⟨meshCount ms L - 1, by omega⟩
      rw [he] at hcK ⊢
      rw [List.range_succ, List.map_append, ← List.append_assoc, List.map_singleton,
        List.getLastD_concat, List.sum_append]
      push_cast at hcK ⊢
      simp only [List.sum_singleton]
      field_simp
    · rw [List.getD_append _ _ _ _ (by omega), h5]
    · rw [List.getD_append _ _ _ _ (by omega), h6]
    · intro i hi j hj
      rw [List.length_append, List.length_singleton] at hi
      by_cases hlt : i < Ls.length
      · rw [List.getElem_append_left hlt] at hj ⊢
        obtain ⟨a1, a2, a3⟩ := h7 i hlt j hj
        rw [hoff i hlt.le, hst i hlt.le]
        have hle : meshOff ms Ls (i + 1) ≤ meshOff ms Ls Ls.length := by
          unfold meshOff
          rw [List.take_length]
          conv_rhs => rw [← List.take_append_drop (i + 1) Ls, List.map_append, List.sum_append]
          omega
        rw [meshOff_succ ms Ls hlt] at hle
        refine ⟨?_, ?_, ?_⟩
        · rw [List.getD_append _ _ _ _ (by omega), a1]
        · rw [List.getD_append _ _ _ _ (by omega), a2]
        · rw [List.getD_append _ _ _ _ (by omega), a3]
      · have : i = Ls.length := by omega
        subst this
        simp only [List.getElem_concat_length] at hj ⊢
        rw [hoff _ le_rfl, hst _ le_rfl]
        have hs : spanStart Ls Ls.length = Ls.sum := by rw [spanStart, List.take_length]
        refine ⟨?_, ?_, ?_⟩
        · rw [List.getD_append_right _ _ _ _ (by omega), h2]
          have : meshOff ms Ls Ls.length + j + 1 - (meshOff ms Ls Ls.length + 1) = j := by omega
          rw [this, List.getD_eq_getElem?_getD, List.getElem?_map, List.getElem?_range hj, hs]
          rfl
        · rw [List.getD_append_right _ _ _ _ (by omega), h1]
          have : meshOff ms Ls Ls.length + j - meshOff ms Ls Ls.length = j := by omega
          rw [this, List.getD_eq_getElem?_getD, List.getElem?_replicate_of_lt hj]
          rfl
        · rw [List.getD_append_right _ _ _ _ (by omega), h3]
          have : meshOff ms Ls Ls.length + j + 1 - (meshOff ms Ls Ls.length + 1) = j := by omega
          rw [this, List.getD_eq_getElem?_getD, List.getElem?_replicate_of_lt hj]
          rfl

/-- The node at the start of a span. -/
theorem buildMesh_start (ms : K) (Ls : List K) {i : ℕ} (hi : i ≤ Ls.length) :
    (buildMesh ms Ls).nodes.getD (meshOff ms Ls i) 0 = spanStart Ls i := by
  obtain ⟨-, -, -, -, h5, -, h7⟩ := buildMesh_spec ms Ls
  cases i with
  | zero => simpa [meshOff, spanStart] using h5
  | succ i =>
    have hi' : i < Ls.length := by omega
    have hc := meshCount_pos ms Ls[i]
    have hcK : (meshCount ms Ls[i] : K) ≠ 0 := by exact_mod_cast hc.ne'
    obtain ⟨a, -, -⟩ := h7 i hi' (meshCount ms Ls[i] - 1) (by omega)
    rw [meshOff_succ ms Ls hi', spanStart_succ Ls hi']
    rw [show meshOff ms Ls i + (meshCount ms Ls[i] - 1) + 1
      = meshOff ms Ls i + meshCount ms Ls[i] by omega] at a
    rw [a, Nat.cast_sub (by omega)]
    push_cast
    field_simp
    ring

/-- Every element belongs to a span. -/
theorem meshOff_find (ms : K) (Ls : List K) {k : ℕ} (hk : k < meshOff ms Ls Ls.length) :
    ∃ i, ∃ hi : i < Ls.length, ∃ j < meshCount ms Ls[i], k = meshOff ms Ls i + j := by
  have : ∀ n ≤ Ls.length, k < meshOff ms Ls n →
      ∃ i, ∃ hi : i < Ls.length, ∃ j < meshCount ms Ls[i], k = meshOff ms Ls i + j := by
    intro n
    induction n with
    | zero => intro _ h; simp [meshOff] at h
    | succ n ih =>
      intro hn h
      by_cases hlt : k < meshOff ms Ls n
      · exact ih (by omega) hlt
      · rw [meshOff_succ ms Ls (by omega)] at h
        exact ⟨n, by omega, k - meshOff ms Ls n, by omega, by omega⟩
  exact this _ le_rfl hk

theorem takeIdx_ok {α : Type*} {vs : List α} {is : List ℕ} {r : List α} (h : takeIdx vs is = .ok r) :
    r.length = is.length ∧ ∀ k (hk : k < is.length) (hk' : k < r.length), vs[is[k]]? = some r[k] := by
  obtain ⟨h1, h2⟩ := mapE_ok h
  refine ⟨h1, fun k hk hk' => ?_⟩
  have := h2 k hk hk'
  split at this
  · rename_i v hv
    cases this
    exact hv
  · cases this

/-- What a successful construction tells. -/
theorem NL.new_ok {L : List K} {EI : SpanArg (Rigidity K)} {R : List K} {Mp : SpanArg K}
    {My : Option (SpanArg K)} {q ms : K} {c : NL K} (h : NL.new L EI R Mp My q ms = .ok c) :
    ∃ EIs, nlEI L.length EI = .ok EIs ∧ c.spanL = L ∧ c.q = q ∧ c.mesh = buildMesh ms L ∧
      bcDofs (buildMesh ms L).nodes L R = .ok c.bc ∧
      takeIdx EIs ((buildMesh ms L).n2s.take (buildMesh ms L).elemL.length) = .ok c.EI ∧
      takeIdx (Mp.expand L.length) (buildMesh ms L).n2s = .ok c.Mp := by
  unfold NL.new at h
  split at h
  · cases h
  · rename_i EIs hE
    simp only at h
    split at h
    · cases h
    · split at h
      · cases h
      · rename_i bc hbc
        split at h
        · cases h
        · rename_i e he
          split at h
          · cases h
          · rename_i mp hmp
            split at h
            · cases h
            · cases h
              exact ⟨EIs, hE, rfl, rfl, rfl, hbc, he, hmp⟩

/-- **C67**: for any spans and mesh size, the mesh starts at 0 and ends at the end of the
beam, consecutive nodes are one (positive) element length apart, every support is a
node, every element lies within one span; elements carry the rigidity of their span
except that the first element of every later span carries that of the span before
(`C67_rigidity_violation`); nodes inside a span or at its right end carry the plastic
moment of that span, the first node that of the first span. -/
theorem C67_mesh_partial (L : List K) (EI : SpanArg (Rigidity K)) (R : List K) (Mp : SpanArg K)
    (My : Option (SpanArg K)) (q ms : K) (c : NL K) (h : NL.new L EI R Mp My q ms = .ok c)
    (hL : ∀ l ∈ L, 0 < l) :
    ∃ EIs, nlEI L.length EI = .ok EIs ∧
    c.nNodes = c.nElem + 1 ∧ c.x 0 = 0 ∧ c.x c.nElem = L.sum ∧
    (∀ k < c.nElem, 0 < c.len k ∧ c.x (k + 1) = c.x k + c.len k) ∧
    (∀ i ≤ L.length, ∃ j ≤ c.nElem, c.x j = (L.take i).sum) ∧
    ∀ k < c.nElem, ∃ i < L.length,
      (L.take i).sum ≤ c.x k ∧ c.x (k + 1) ≤ (L.take (i + 1)).sum ∧
      c.EI[k]? = EIs[if c.x k = (L.take i).sum ∧ 0 < i then i - 1 else i]? ∧
      c.Mp[k + 1]? = (Mp.expand L.length)[i]? ∧ (k = 0 → i = 0 ∧ c.Mp[0]? = (Mp.expand L.length)[0]?) := by
  obtain ⟨EIs, e1, e2, -, e4, -, e6, e7⟩ := NL.new_ok h
  obtain ⟨h1, h2, h3, h4, h5, h6, h7⟩ := buildMesh_spec ms L
  have hst := fun i (hi : i ≤ L.length) => buildMesh_start ms L hi
  have hne : c.nElem = meshOff ms L L.length := by rw [NL.nElem, e4, h1]
  have hx : ∀ j, c.x j = (buildMesh ms L).nodes.getD j 0 := fun j => by rw [NL.x, e4]
  have hlen : ∀ j, c.len j = (buildMesh ms L).elemL.getD j 0 := fun j => by rw [NL.len, e4]
  -- the left end of an element of span `i`
  have hleft : ∀ i (hi : i < L.length), ∀ j < meshCount ms L[i],
      c.x (meshOff ms L i + j) = spanStart L i + (j : K) * (L[i] / meshCount ms L[i]) := by
    intro i hi j hj
    cases j with
    | zero =>
      rw [hx, Nat.add_zero, hst i hi.le]
      simp
    | succ j =>
      rw [hx, ← Nat.add_assoc, (h7 i hi j (by omega)).1]
      push_cast
      ring
  have hmono : ∀ i j, i ≤ j → j ≤ L.length → meshOff ms L i ≤ meshOff ms L j := by
    intro i j hij
    induction j with
    | zero =>
      intro _
      rw [show i = 0 by omega]
    | succ j ih =>
      intro hj
      rcases Nat.lt_or_ge i (j + 1) with hlt | hge
      · have := ih (by omega) (by omega)
        rw [meshOff_succ ms L (by omega)]
        omega
      · rw [show i = j + 1 by omega]
  refine ⟨EIs, e1, by rw [NL.nNodes, e4, h2, hne], by rw [hx, h5], ?_, ?_, ?_, ?_⟩
  · rw [hx, hne, hst _ le_rfl, spanStart, List.take_length]
  · intro k hk
    rw [hne] at hk
    obtain ⟨i, hi, j, hj, rfl⟩ := meshOff_find ms L hk
    obtain ⟨a1, a2, -⟩ := h7 i hi j hj
    have hc : (0 : K) < meshCount ms L[i] := by exact_mod_cast meshCount_pos ms L[i]
    refine ⟨?_, ?_⟩
    · rw [hlen, a2]
      exact div_pos (hL _ (List.getElem_mem hi)) hc
    · rw [hlen, a2, hleft i hi j hj, hx, a1]
      ring
  · intro i hi
    refine ⟨meshOff ms L i, ?_, ?_⟩
    · rw [hne]
      exact hmono i _ hi le_rfl
    · rw [hx, hst i hi, spanStart]
  · intro k hk
    rw [hne] at hk
    obtain ⟨i, hi, j, hj, hkij⟩ := meshOff_find ms L hk
    obtain ⟨a1, a2, a3⟩ := h7 i hi j hj
    have hc : (0 : K) < meshCount ms L[i] := by exact_mod_cast meshCount_pos ms L[i]
    have hLi := hL _ (List.getElem_mem hi)
    have hh : 0 < L[i] / meshCount ms L[i] := div_pos hLi hc
    have hxk := hleft i hi j hj
    rw [← hkij] at hxk a1 a3
    obtain ⟨t1, t2⟩ := takeIdx_ok e6
    obtain ⟨u1, u2⟩ := takeIdx_ok e7
    have hEIlen : c.EI.length = c.nElem := by rw [t1, List.length_take, h1, h3, hne]; omega
    have hMplen : c.Mp.length = c.nElem + 1 := by rw [u1, h3, hne]
    have n2s_get : ∀ r (hr : r < (buildMesh ms L).n2s.length),
        (buildMesh ms L).n2s[r] = (buildMesh ms L).n2s.getD r 0 := by
      intro r hr
      rw [List.getD_eq_getElem?_getD, List.getElem?_eq_getElem hr]
      rfl
    refine ⟨i, hi, ?_, ?_, ?_, ?_, ?_⟩
    · rw [hxk]
      have : 0 ≤ (j : K) * (L[i] / meshCount ms L[i]) := by positivity
      show spanStart L i ≤ _
      linarith
    · show c.x (k + 1) ≤ spanStart L (i + 1)
      rw [hx, a1, spanStart_succ L hi]
      have : ((j : K) + 1) ≤ meshCount ms L[i] := by exact_mod_cast hj
      have := mul_le_mul_of_nonneg_right this hh.le
      rw [mul_div_cancel₀ _ hc.ne'] at this
      linarith
    · have hk' : k < c.EI.length := by rw [hEIlen, hne]; exact hk
      have hk2 : k < ((buildMesh ms L).n2s.take (buildMesh ms L).elemL.length).length := by
        rw [← t1]; exact hk'
      have := t2 k hk2 hk'
      rw [List.getElem_take, n2s_get k (by rw [h3]; omega)] at this
      rw [List.getElem?_eq_getElem hk', ← this]
      congr 1
      have hcond : (c.x k = (L.take i).sum ∧ 0 < i) ↔ (j = 0 ∧ 0 < i) := by
        have : c.x k = (L.take i).sum ↔ j = 0 := by
          rw [hxk]
          show spanStart L i + _ = spanStart L i ↔ _
          constructor
          · intro he
            have : (j : K) * (L[i] / meshCount ms L[i]) = 0 := by linarith
            rcases mul_eq_zero.1 this with h0 | h0
            · exact_mod_cast h0
            · exact absurd h0 hh.ne'
          · rintro rfl
            simp
        rw [this]
      simp only [hcond]
      cases j with
      | succ j =>
        rw [if_neg (by omega), hkij]
        exact (h7 i hi j (by omega)).2.2
      | zero =>
        cases i with
        | zero =>
          rw [if_neg (by omega), hkij]
          simpa [meshOff] using h6
        | succ i =>
          rw [if_pos ⟨rfl, by omega⟩, hkij, Nat.add_zero, meshOff_succ ms L (by omega)]
          have hp := meshCount_pos ms L[i]
          have := (h7 i (by omega) (meshCount ms L[i] - 1) (by omega)).2.2
          rw [show meshOff ms L i + (meshCount ms L[i] - 1) + 1
            = meshOff ms L i + meshCount ms L[i] by omega] at this
          rw [this]
          omega
    · have hk' : k + 1 < c.Mp.length := by rw [hMplen, hne]; omega
      have := u2 (k + 1) (by rw [← u1]; exact hk') hk'
      rw [n2s_get, a3] at this
      rw [List.getElem?_eq_getElem hk', this]
    · rintro rfl
      constructor
      · by_contra hne0
        have := hmono 1 i (by omega) hi.le
        rw [meshOff_succ ms L (by omega)] at this
        have := meshCount_pos ms L[0]
        omega
      · have hk' : 0 < c.Mp.length := by omega
        have := u2 0 (by rw [← u1]; exact hk') hk'
        rw [n2s_get, h6] at this
        rw [List.getElem?_eq_getElem hk', this]

/-- **C67** (yield moments): at every node the yield moment is that of the span whose
plastic moment the node has; without yield moments the plastic moment is 1.15 times it. -/
theorem C67_yield (L : List K) (EI : SpanArg (Rigidity K)) (R : List K) (Mp : SpanArg K)
    (My : Option (SpanArg K)) (q ms : K) (c : NL K) (h : NL.new L EI R Mp My q ms = .ok c) :
    ∀ k < c.nNodes, ∃ mp my, c.Mp[k]? = some mp ∧ c.My[k]? = some my ∧
      (My = none → my * (115 / 100) = mp) ∧
      ∀ v, My = some v → ∃ i : ℕ, (Mp.expand L.length)[i]? = some mp ∧ (v.expand L.length)[i]? = some my := by
  obtain ⟨EIs, -, -, -, e4, -, -, e7⟩ := NL.new_ok h
  have e8 : takeIdx (match My with
      | none => (Mp.expand L.length).map (· / (115 / 100))
      | some v => v.expand L.length) (buildMesh ms L).n2s = .ok c.My := by
    unfold NL.new at h
    split at h
    · cases h
    · simp only at h
      split at h
      · cases h
      · split at h
        · cases h
        · split at h
          · cases h
          · split at h
            · cases h
            · split at h
              · cases h
              · rename_i hMy
                have := (Except.ok.inj h).symm
                subst this
                exact hMy
  intro k hk
  have hlen : (buildMesh ms L).n2s.length = c.nNodes := by
    rw [NL.nNodes, e4, (buildMesh_spec ms L).2.1, (buildMesh_spec ms L).2.2.1]
  obtain ⟨a1, a2⟩ := takeIdx_ok e7
  obtain ⟨b1, b2⟩ := takeIdx_ok e8
  have hk1 : k < (buildMesh ms L).n2s.length := by omega
  have p1 := a2 k hk1 (by omega)
  have p2 := b2 k hk1 (by omega)
  refine ⟨c.Mp[k]'(by omega), c.My[k]'(by omega), List.getElem?_eq_getElem _, List.getElem?_eq_getElem _,
    ?_, ?_⟩
  · intro hn
    subst hn
    simp only [List.getElem?_map, p1, Option.map_some, Option.some.injEq] at p2
    rw [← p2]
    field_simp
  · intro v hv
    subst hv
    exact ⟨_, p1, p2⟩

/-- **C67 fails** for the rigidity: in every beam whose second span has another rigidity
than the first, some element lying in the second span carries the rigidity of the first. -/
theorem C67_rigidity_violation (L : List K) (EIs : List K) (R : List K) (Mp : SpanArg K)
    (My : Option (SpanArg K)) (q ms : K) (c : NL K)
    (h : NL.new L (.each (EIs.map .const)) R Mp My q ms = .ok c)
    (hL : ∀ l ∈ L, 0 < l) (h2 : 1 < L.length) :
    ∃ k < c.nElem, c.x k = L[0] ∧ L[0] < c.x (k + 1) ∧ c.x (k + 1) ≤ L[0] + L[1] ∧
      c.EI[k]? = EIs[0]? := by
  obtain ⟨EIs', e1, -, h3, h4, h5, h6, h7⟩ := C67_mesh_partial L _ R Mp My q ms c h hL
  have hE : EIs' = EIs := by
    simp only [nlEI] at e1
    have : ∀ l : List K, mapE constRigidity (l.map Rigidity.const) = .ok l := by
      intro l
      induction l with
      | nil => rfl
      | cons a l ih => simp only [List.map_cons, mapE, constRigidity, ih]
    rw [this] at e1
    cases e1
    rfl
  subst hE
  obtain ⟨j, hj, hx⟩ := h6 1 (by omega)
  have hx' : c.x j = L[0] := by
    rw [hx]
    cases L with
    | nil => simp at h2
    | cons a l => simp
  have hsum : ∀ i, (hi : i < L.length) → (L.take (i + 1)).sum = (L.take i).sum + L[i] :=
    fun i hi => spanStart_succ L hi
  have hpos : ∀ i ≤ L.length, ∀ r ≤ i, (L.take r).sum ≤ (L.take i).sum := by
    intro i
    induction i with
    | zero => intro _ r hr; rw [show r = 0 by omega]
    | succ i ih =>
      intro hi r hr
      rw [hsum i (by omega)]
      have := hL _ (List.getElem_mem (show i < L.length by omega))
      rcases Nat.lt_or_ge r (i + 1) with hlt | hge
      · linarith [ih (by omega) r (by omega)]
      · rw [show r = i + 1 by omega, hsum i (by omega)]
  have hj' : j < c.nElem := by
    rcases Nat.lt_or_ge j c.nElem with hlt | hge
    · exact hlt
    · exfalso
      have : j = c.nElem := by omega
      rw [this, h4] at hx'
      have h1 := hpos L.length le_rfl 2 (by omega)
      rw [List.take_length, hsum 1 h2, hsum 0 (by omega)] at h1
      simp only [List.take_zero, List.sum_nil, zero_add] at h1
      have := hL _ (List.getElem_mem h2)
      linarith
  obtain ⟨hl1, hl2⟩ := h5 j hj'
  obtain ⟨i, hi, a1, a2, a3, -, -⟩ := h7 j hj'
  have hi1 : i = 1 := by
    rcases Nat.lt_trichotomy i 1 with hlt | he | hgt
    · exfalso
      have : i = 0 := by omega
      subst this
      rw [hsum 0 (by omega)] at a2
      simp only [List.take_zero, List.sum_nil, zero_add] at a2
      linarith
    · exact he
    · exfalso
      have := hpos i hi.le 2 (by omega)
      rw [hsum 1 h2, hsum 0 (by omega)] at this
      simp only [List.take_zero, List.sum_nil, zero_add] at this
      have := hL _ (List.getElem_mem h2)
      linarith
  subst hi1
  refine ⟨j, hj', hx', by linarith, ?_, ?_⟩
  · rw [hsum 1 h2, hsum 0 (by omega)] at a2
    simpa using a2
  · rw [a3, if_pos ⟨by rw [hx], by omega⟩]

end PyCBA
