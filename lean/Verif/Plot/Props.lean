import Verif.Plot.Model
import Verif.Build.Text

/-!
C137-C139: result plots show the reported numbers with either backend, envelope plots, and the
choice of the backend.
-/

set_option linter.unusedSectionVars false
set_option linter.unusedSimpArgs false

namespace PyCBA

variable {K : Type*} [Field K] [LinearOrder K] [IsStrictOrderedRing K]

/-! ### Specification -/

/-- The height above the zero line at which a value is drawn. -/
def Panel.height (p : Panel K) (y : K) : K := if p.inverted then -y else y

/-- A label with its unit in brackets, when there is one. -/
def IsLabel (what unit label : String) : Prop :=
  (unit = "" ∧ label = what) ∨ (unit ≠ "" ∧ label = what ++ " (" ++ unit ++ ")")

/-- The panel draws the curve `c`, and besides it at most a piece of the zero line. -/
def Draws (p : Panel K) (c : List (K × K)) : Prop :=
  ∃ l, p.curves = l ++ [c] ∧ ∀ c' ∈ l, ∀ q ∈ c', q.2 = 0

/-- The bending-moment panel of the results `vs`: it draws the moment of every station, in order,
and a sagging moment is drawn below the zero line. -/
structure ShowsMoment (us : UnitSystem) (vs : List (List (FStn K))) (p : Panel K) : Prop where
  label : IsLabel "Bending Moment" us.moment p.ylabel
  draws : ∃ c, Draws p c ∧ c.length = vs.flatten.length ∧
    ∀ (k : ℕ) (s : FStn K), vs.flatten[k]? = some s → c[k]? = some (s.x, s.M)
  below : ∀ M : K, 0 < M → p.height M < 0

/-- The shear panel: positive shear is drawn above the zero line. -/
structure ShowsShear (us : UnitSystem) (vs : List (List (FStn K))) (p : Panel K) : Prop where
  label : IsLabel "Shear Force" us.force p.ylabel
  draws : ∃ c, Draws p c ∧ c.length = vs.flatten.length ∧
    ∀ (k : ℕ) (s : FStn K), vs.flatten[k]? = some s → c[k]? = some (s.x, s.V)
  above : ∀ V : K, 0 < V → 0 < p.height V

/-- The deflection panel: the points of the deflection curve, in display units, and what deflects
downwards is drawn below the zero line. -/
structure ShowsDeflection (us : UnitSystem) (vs : List (List (FStn K))) (p : Panel K) : Prop where
  label : IsLabel "Deflection" us.dispLabel p.ylabel
  draws : ∃ c, Draws p c ∧ c.length = (deflectionCurve vs).length ∧
    ∀ (k : ℕ) (x d : K), (deflectionCurve vs)[k]? = some (x, d) → c[k]? = some (x, (us.dispScale : K) * d)
  below : ∀ d : K, d < 0 → p.height d < 0

/-- Two panels that look alike up to the drawn piece of the zero line. -/
structure SamePicture (p q : Panel K) : Prop where
  ylabel : p.ylabel = q.ylabel
  inverted : p.inverted = q.inverted
  curves : ∃ l l', (∀ c ∈ l ++ l', ∀ r ∈ c, r.2 = 0) ∧ ∃ cs, p.curves = l ++ cs ∧ q.curves = l' ++ cs

/-- A name spelt with any mixture of capitals and small letters. -/
def Writes (w : String) (s : List Char) : Prop :=
  List.Forall₂ (fun p c => c = p.1 ∨ c = p.2) (bothCases w) s

/-- The backend a name stands for. -/
def Means (s : List Char) : Backend → Prop
  | .matplotlib => Writes "matplotlib" s
  | .plotly => Writes "plotly" s

/-! ### Lemmas -/

theorem isLabel_suffix (what unit : String) : IsLabel what unit (what ++ unitSuffix unit) := by
  by_cases h : unit = ""
  · left; simp [h, unitSuffix]
  · right; exact ⟨h, by simp [unitSuffix, h, String.append_assoc]⟩

theorem zeroLine_zero (L : K) : ∀ q ∈ zeroLine L, q.2 = 0 := by
  intro q hq
  simp only [zeroLine, List.mem_cons, List.not_mem_nil, or_false] at hq
  rcases hq with rfl | rfl <;> rfl

theorem stationCurve_spec (vs : List (List (FStn K))) (f : FStn K → K) :
    (stationCurve vs f).length = vs.flatten.length ∧
      ∀ (k : ℕ) (s : FStn K), vs.flatten[k]? = some s → (stationCurve vs f)[k]? = some (s.x, f s) := by
  refine ⟨by simp only [stationCurve, List.length_map], fun k s h => ?_⟩
  simp only [stationCurve, List.getElem?_map, h, Option.map_some]

theorem scaledCurve_spec (us : UnitSystem) (vs : List (List (FStn K))) :
    (scaledCurve us vs).length = (deflectionCurve vs).length ∧
      ∀ (k : ℕ) (x d : K), (deflectionCurve vs)[k]? = some (x, d) →
        (scaledCurve us vs)[k]? = some (x, (us.dispScale : K) * d) := by
  refine ⟨by simp only [scaledCurve, List.length_map], fun k x d h => ?_⟩
  simp only [scaledCurve, List.getElem?_map, h, Option.map_some, mul_comm]

theorem draws_one (p : Panel K) (c : List (K × K)) (h : p.curves = [c]) : Draws p c :=
  ⟨[], by simpa using h, by simp⟩

theorem draws_two (p : Panel K) (c : List (K × K)) (L : K) (h : p.curves = [zeroLine L, c]) :
    Draws p c :=
  ⟨[zeroLine L], by simpa using h, by
    intro c' hc; rw [List.mem_singleton.1 hc]; exact zeroLine_zero L⟩

theorem showsMoment (us : UnitSystem) (vs : List (List (FStn K))) (p : Panel K)
    (h1 : p.ylabel = us.momentAxis) (h2 : Draws p (stationCurve vs (·.M))) (h3 : p.inverted = true) :
    ShowsMoment us vs p :=
  ⟨by rw [h1]; exact isLabel_suffix _ _, ⟨_, h2, stationCurve_spec vs _⟩, fun M hM => by
    simp only [Panel.height, h3, if_true]; linarith⟩

theorem showsShear (us : UnitSystem) (vs : List (List (FStn K))) (p : Panel K)
    (h1 : p.ylabel = us.shearAxis) (h2 : Draws p (stationCurve vs (·.V))) (h3 : p.inverted = false) :
    ShowsShear us vs p :=
  ⟨by rw [h1]; exact isLabel_suffix _ _, ⟨_, h2, stationCurve_spec vs _⟩, fun V hV => by
    simp only [Panel.height, h3, Bool.false_eq_true, if_false]; exact hV⟩

theorem showsDeflection (us : UnitSystem) (vs : List (List (FStn K))) (p : Panel K)
    (h1 : p.ylabel = us.deflectionAxis) (h2 : Draws p (scaledCurve us vs))
    (h3 : p.inverted = false) : ShowsDeflection us vs p :=
  ⟨by rw [h1]; exact isLabel_suffix _ _, ⟨_, h2, scaledCurve_spec us vs⟩, fun V hV => by
    simp only [Panel.height, h3, Bool.false_eq_true, if_false]; exact hV⟩

/-! ### C137 -/

/-- **C137**, `plot_results`: with either backend the figure has a bending-moment, a shear and a
deflection panel, in this order, and they show the reported stations and the deflection curve;
before an analysis nothing is drawn. -/
theorem C137_results (avail : Bool) (dflt : Backend) (arg : Option (List Char)) (us : UnitSystem)
    (L : K) (showReactions : Bool) (res : Option (List (List (FStn K))))
    (out : Option (List (Panel K)))
    (h : plotResults avail dflt arg us L showReactions res = .ok out) :
    (res = none ∧ out = none) ∨ ∃ vs pM pV pD, res = some vs ∧ out = some [pM, pV, pD] ∧
      ShowsMoment us vs pM ∧ ShowsShear us vs pV ∧ ShowsDeflection us vs pD := by
  unfold plotResults at h
  cases res with
  | none => left; exact ⟨rfl, (Except.ok.inj h).symm⟩
  | some vs =>
    right
    dsimp only at h
    cases hb : resolveBackend dflt arg with
    | error e => rw [hb] at h; cases h
    | ok b =>
      rw [hb] at h
      cases b with
      | plotly =>
        dsimp only at h
        by_cases ha : avail
        · rw [if_pos ha] at h
          refine ⟨vs, ⟨us.momentAxis, [stationCurve vs (·.M)], true, true, none⟩,
            ⟨us.shearAxis, [stationCurve vs (·.V)], false, true, none⟩,
            ⟨us.deflectionAxis, [scaledCurve us vs], false, false, some us.distanceAxis⟩, rfl,
            (Except.ok.inj h).symm, ?_, ?_, ?_⟩
          · exact showsMoment us vs _ rfl (draws_one _ _ rfl) rfl
          · exact showsShear us vs _ rfl (draws_one _ _ rfl) rfl
          · exact showsDeflection us vs _ rfl (draws_one _ _ rfl) rfl
        · rw [if_neg ha] at h; cases h
      | matplotlib =>
        refine ⟨vs, ⟨us.momentAxis, [zeroLine L, stationCurve vs (·.M)], true, true, none⟩,
          ⟨us.shearAxis, [zeroLine L, stationCurve vs (·.V)], false, true, none⟩,
          ⟨us.deflectionAxis, [zeroLine L, scaledCurve us vs], false, false,
            if showReactions then none else some us.distanceAxis⟩, rfl,
          (Except.ok.inj h).symm, ?_, ?_, ?_⟩
        · exact showsMoment us vs _ rfl (draws_two _ _ L rfl) rfl
        · exact showsShear us vs _ rfl (draws_two _ _ L rfl) rfl
        · exact showsDeflection us vs _ rfl (draws_two _ _ L rfl) rfl

/-- **C137**, single diagrams (`plot_bmd`, `plot_sfd`, `plot_dsd`) into a new figure, with either
backend. -/
theorem C137_diagram (avail : Bool) (dflt : Backend) (arg : Option (List Char)) (us : UnitSystem)
    (L : K) (vs : List (List (FStn K))) :
    (∀ p, plotDiagram avail dflt arg us L .M none (some vs) = .ok (some p) → ShowsMoment us vs p) ∧
    (∀ p, plotDiagram avail dflt arg us L .V none (some vs) = .ok (some p) → ShowsShear us vs p) ∧
    (∀ p, plotDiagram avail dflt arg us L .D none (some vs) = .ok (some p) →
      ShowsDeflection us vs p) := by
  have key : ∀ kind p, plotDiagram avail dflt arg us L kind none (some vs) = .ok (some p) →
      p = diagramPlotly us vs kind ∨ p = diagramMpl us L vs kind none := by
    intro kind p h
    unfold plotDiagram at h
    dsimp only at h
    cases hb : resolveBackend dflt arg with
    | error e => rw [hb] at h; cases h
    | ok b =>
      rw [hb] at h
      cases b with
      | plotly =>
        dsimp only at h
        by_cases ha : avail
        · rw [if_pos ha] at h; left; exact (Option.some.inj (Except.ok.inj h)).symm
        · rw [if_neg ha] at h; cases h
      | matplotlib => right; exact (Option.some.inj (Except.ok.inj h)).symm
  refine ⟨fun p h => ?_, fun p h => ?_, fun p h => ?_⟩
  · rcases key _ _ h with rfl | rfl
    · exact showsMoment us vs _ rfl (draws_one _ _ rfl) rfl
    · exact showsMoment us vs _ rfl (draws_two _ _ L rfl) rfl
  · rcases key _ _ h with rfl | rfl
    · exact showsShear us vs _ rfl (draws_one _ _ rfl) rfl
    · exact showsShear us vs _ rfl (draws_two _ _ L rfl) rfl
  · rcases key _ _ h with rfl | rfl
    · exact showsDeflection us vs _ rfl (draws_one _ _ rfl) rfl
    · exact showsDeflection us vs _ rfl (draws_two _ _ L rfl) rfl

/-- **C137**, the backends agree: the panels of `plot_results` look alike whichever backend draws
them. -/
theorem C137_backends_agree (avail avail' : Bool) (dflt dflt' : Backend)
    (arg arg' : Option (List Char)) (us : UnitSystem) (L : K) (sr sr' : Bool)
    (vs : List (List (FStn K))) (ps qs : List (Panel K))
    (h : plotResults avail dflt arg us L sr (some vs) = .ok (some ps))
    (h' : plotResults avail' dflt' arg' us L sr' (some vs) = .ok (some qs)) :
    List.Forall₂ SamePicture ps qs := by
  have key : ∀ (a : Bool) (d : Backend) (g : Option (List Char)) (s : Bool) (ps : List (Panel K)),
      plotResults a d g us L s (some vs) = .ok (some ps) →
      ∃ l x, (l = [] ∨ l = [zeroLine L]) ∧ ps = [⟨us.momentAxis, l ++ [stationCurve vs (·.M)], true, true, none⟩,
        ⟨us.shearAxis, l ++ [stationCurve vs (·.V)], false, true, none⟩,
        ⟨us.deflectionAxis, l ++ [scaledCurve us vs], false, false, x⟩] := by
    intro a d g s ps h
    unfold plotResults at h
    dsimp only at h
    cases hb : resolveBackend d g with
    | error e => rw [hb] at h; cases h
    | ok b =>
      rw [hb] at h
      cases b with
      | plotly =>
        dsimp only at h
        by_cases ha : a
        · rw [if_pos ha] at h
          exact ⟨[], some us.distanceAxis, Or.inl rfl, (Option.some.inj (Except.ok.inj h)).symm⟩
        · rw [if_neg ha] at h; cases h
      | matplotlib =>
        exact ⟨[zeroLine L], if s then none else some us.distanceAxis, Or.inr rfl,
          (Option.some.inj (Except.ok.inj h)).symm⟩
  obtain ⟨l, x, hl, rfl⟩ := key _ _ _ _ _ h
  obtain ⟨l', x', hl', rfl⟩ := key _ _ _ _ _ h'
  have hz : ∀ c ∈ l ++ l', ∀ r ∈ c, r.2 = 0 := by
    intro c hc
    have : c = zeroLine L := by
      rcases hl with rfl | rfl <;> rcases hl' with rfl | rfl <;> simp_all
    rw [this]; exact zeroLine_zero L
  refine .cons ⟨rfl, rfl, l, l', hz, _, rfl, rfl⟩ (.cons ⟨rfl, rfl, l, l', hz, _, rfl, rfl⟩
    (.cons ⟨rfl, rfl, l, l', hz, _, rfl, rfl⟩ .nil))

/-- **C137**, overlays: into given matplotlib axes a diagram only adds its curve, the same as in a
figure of its own. -/
theorem C137_overlay (avail : Bool) (dflt : Backend) (arg : Option (List Char)) (us : UnitSystem)
    (L : K) (vs : List (List (FStn K))) (kind : Kind) (ax p q : Panel K)
    (hb : resolveBackend dflt arg = .ok .matplotlib)
    (h : plotDiagram avail dflt arg us L kind (some ax) (some vs) = .ok (some p))
    (h' : plotDiagram avail dflt arg us L kind none (some vs) = .ok (some q)) :
    p.ylabel = ax.ylabel ∧ p.inverted = ax.inverted ∧ p.xlabel = ax.xlabel ∧
      ∃ c, Draws q c ∧ p.curves = ax.curves ++ [c] := by
  unfold plotDiagram at h h'
  dsimp only at h h'
  rw [hb] at h h'
  obtain rfl := (Option.some.inj (Except.ok.inj h))
  obtain rfl := (Option.some.inj (Except.ok.inj h'))
  refine ⟨rfl, rfl, rfl, ?_⟩
  cases kind
  · exact ⟨stationCurve vs (·.M), draws_two _ _ L rfl, rfl⟩
  · exact ⟨stationCurve vs (·.V), draws_two _ _ L rfl, rfl⟩
  · exact ⟨scaledCurve us vs, draws_two _ _ L rfl, rfl⟩

theorem columnStack_ok (cols : List (List K)) (n : ℕ) (hne : cols ≠ []) (h : ∀ c ∈ cols, c.length = n) :
    columnStack cols = .ok ((List.range n).map fun k => cols.map fun c => c.getD k 0) := by
  have h0 : (cols.headD []).length = n := by
    cases cols with
    | nil => exact absurd rfl hne
    | cons c cs => exact h c (by simp)
  unfold columnStack
  simp only [h0]
  rw [if_pos (by simpa using h)]

/-- **C137**, exports: a row of the file, and of the table, for every station in order, under the
header of its column. -/
theorem C137_exports (vs : List (List (FStn K))) :
    (∃ hd rows, toCsv vs = .ok (hd, rows) ∧ hd = (toDataframe vs).map Prod.fst ∧
      hd = ["x", "M", "V", "R", "D"] ∧ rows.length = vs.flatten.length ∧
      ∀ (k : ℕ) (s : FStn K), vs.flatten[k]? = some s → rows[k]? = some [s.x, s.M, s.V, s.R, s.D] ∧
        (toDataframe vs).map (fun c => c.2[k]?) = [s.x, s.M, s.V, s.R, s.D].map some) := by
  have h1 := columnStack_ok [vs.flatten.map (·.x), vs.flatten.map (·.M), vs.flatten.map (·.V),
     vs.flatten.map (·.R), vs.flatten.map (·.D)] vs.flatten.length (by simp)
     (by
      simp only [List.mem_cons, List.not_mem_nil, or_false]
      rintro c (rfl | rfl | rfl | rfl | rfl) <;> exact List.length_map _)
  refine ⟨["x", "M", "V", "R", "D"], (List.range vs.flatten.length).map fun k =>
    [vs.flatten.map (·.x), vs.flatten.map (·.M), vs.flatten.map (·.V), vs.flatten.map (·.R),
      vs.flatten.map (·.D)].map fun c => c.getD k 0, by unfold toCsv; rw [h1], rfl, rfl,
    by rw [List.length_map, List.length_range], fun k s hk => ?_⟩
  have hlt : k < vs.flatten.length := by
    rw [List.getElem?_eq_some_iff] at hk; exact hk.1
  have hg : ∀ f : FStn K → K, (vs.flatten.map f).getD k 0 = f s := by
    intro f
    rw [List.getD_eq_getElem?_getD, List.getElem?_map, hk]; rfl
  constructor
  · rw [List.getElem?_map, List.getElem?_range hlt]
    simp only [Option.map_some, List.map_cons, List.map_nil, hg]
  · simp only [toDataframe, List.map_cons, List.map_nil, List.getElem?_map, hk, Option.map_some]

/-- The arrays of an envelope by the names the documentation gives them (`results.py` 384-397). -/
inductive Envelope.Named (e : Envelope K) : String → (ℕ → K) → Prop
  | x : e.Named "x" e.x
  | Mmax : e.Named "Mmax" e.Mmax
  | Mmin : e.Named "Mmin" e.Mmin
  | Vmax : e.Named "Vmax" e.Vmax
  | Vmin : e.Named "Vmin" e.Vmin
  | VcoMmax : e.Named "Vco_Mmax" e.VcoMmax
  | VcoMmin : e.Named "Vco_Mmin" e.VcoMmin
  | McoVmax : e.Named "Mco_Vmax" e.McoVmax
  | McoVmin : e.Named "Mco_Vmin" e.McoVmin

theorem Envelope.attr_named {e : Envelope K} {a : String} {f : ℕ → K} (h : e.attr a = some f) :
    e.Named a f := by
  unfold Envelope.attr at h
  iterate 9
    split at h
    · rename_i ha
      cases h
      rw [ha]
      constructor
  cases h

/-- **C137**, exports of envelopes: a row of the file for every station in order, with the
requested arrays. -/
theorem C137_envelope_exports (e : Envelope K) (attrs : List String) (hd : List String)
    (rows : List (List K)) (h : e.toCsv attrs = .ok (hd, rows)) :
    hd = "x" :: attrs ∧ rows.length = e.npts ∧ ∃ fs : List (ℕ → K), List.Forall₂ e.Named attrs fs ∧
      ∀ k < e.npts, rows[k]? = some (e.x k :: fs.map fun f => f k) := by
  have key : ∀ (as : List String) cs, e.columns as = .ok cs →
      ∃ fs : List (ℕ → K), List.Forall₂ e.Named as fs ∧ cs = fs.map fun f => (List.range e.npts).map f := by
    intro as
    induction as with
    | nil => intro cs h; exact ⟨[], .nil, by simpa [Envelope.columns] using h.symm⟩
    | cons a as ih =>
      intro cs h
      unfold Envelope.columns at h
      cases ha : e.attr a with
      | none => rw [ha] at h; cases h
      | some f =>
        rw [ha] at h
        dsimp only at h
        cases hc : e.columns as with
        | error err => rw [hc] at h; cases h
        | ok cs' =>
          rw [hc] at h
          obtain ⟨fs, h1, h2⟩ := ih cs' hc
          refine ⟨f :: fs, .cons (Envelope.attr_named ha) h1, ?_⟩
          rw [← Except.ok.inj h, h2, List.map_cons]
  unfold Envelope.toCsv at h
  cases hc : e.columns attrs with
  | error err => rw [hc] at h; cases h
  | ok cs =>
    rw [hc] at h
    dsimp only at h
    obtain ⟨fs, h1, rfl⟩ := key attrs cs hc
    rw [columnStack_ok _ e.npts (by simp) (by simp)] at h
    have h2 := Prod.mk.inj (Except.ok.inj h)
    refine ⟨h2.1.symm, by rw [← h2.2]; simp, fs, h1, fun k hk => ?_⟩
    rw [← h2.2, List.getElem?_map, List.getElem?_range hk]
    simp [hk, List.getD_eq_getElem?_getD]

/-- **C137**, exports of envelopes: every choice of documented arrays is exported. -/
theorem C137_envelope_exported (e : Envelope K) (attrs : List String)
    (h : ∀ a ∈ attrs, ∃ f, e.Named a f) : ∃ r, e.toCsv attrs = .ok r := by
  have key : ∀ as : List String, (∀ a ∈ as, ∃ f, e.Named a f) →
      ∃ cs, e.columns as = .ok cs ∧ ∀ c ∈ cs, c.length = e.npts := by
    intro as
    induction as with
    | nil => intro _; exact ⟨[], rfl, nofun⟩
    | cons a as ih =>
      intro h
      obtain ⟨cs, h1, h2⟩ := ih fun b hb => h b (by simp [hb])
      obtain ⟨f, hf⟩ := h a (by simp)
      have : e.attr a = some f := by cases hf <;> simp [Envelope.attr]
      refine ⟨(List.range e.npts).map f :: cs, by unfold Envelope.columns; rw [this]; dsimp only; rw [h1], ?_⟩
      intro c hc
      rcases List.mem_cons.1 hc with rfl | hc
      · simp
      · exact h2 c hc
  obtain ⟨cs, h1, h2⟩ := key attrs h
  unfold Envelope.toCsv
  rw [h1]
  dsimp only
  rw [columnStack_ok _ e.npts (by simp) (by simpa using h2)]
  exact ⟨_, rfl⟩

/-! ### C138 -/

/-- The envelopes a user can get, with the results they keep: from results, by `augment` and
`sum`, and by `combine`, `|` and `+`. -/
inductive Enveloped : PEnv K → Prop
  | new {l : List (EnvRes K)} {p : PEnv K} (h : PEnv.new l = .ok p) : Enveloped p
  | merge {mode : CombineMode} {p q o : PEnv K} (hp : Enveloped p) (hq : Enveloped q)
      (h : p.merge mode q = .ok o) : Enveloped o
  | combine {mode : CombineMode} {ps : List (PEnv K)} {o : PEnv K} (hp : ∀ p ∈ ps, Enveloped p)
      (h : PEnv.combine mode ps = .ok o) : Enveloped o

/-- The extremes enclose zero and all results. -/
structure InBand (e : Envelope K) (l : List (EnvRes K)) : Prop where
  zero : ∀ k, e.Mmin k ≤ 0 ∧ 0 ≤ e.Mmax k ∧ e.Vmin k ≤ 0 ∧ 0 ≤ e.Vmax k
  res : ∀ r ∈ l, ∀ k, e.Mmin k ≤ r.M k ∧ r.M k ≤ e.Mmax k ∧ e.Vmin k ≤ r.V k ∧ r.V k ≤ e.Vmax k

theorem merge_wider {mode : CombineMode} {e e' o : Envelope K} {l' : List (EnvRes K)}
    (h' : InBand e' l') (h : e.merge mode e' = .ok o) (k : ℕ) :
    (o.Mmin k ≤ e.Mmin k ∧ e.Mmax k ≤ o.Mmax k ∧ o.Vmin k ≤ e.Vmin k ∧ e.Vmax k ≤ o.Vmax k) ∧
    ((∀ k, e.Mmin k ≤ 0 ∧ 0 ≤ e.Mmax k ∧ e.Vmin k ≤ 0 ∧ 0 ≤ e.Vmax k) →
      o.Mmin k ≤ e'.Mmin k ∧ e'.Mmax k ≤ o.Mmax k ∧ o.Vmin k ≤ e'.Vmin k ∧ e'.Vmax k ≤ o.Vmax k) := by
  obtain ⟨z1, z2, z3, z4⟩ := h'.zero k
  cases mode with
  | envelope =>
    simp only [Envelope.merge, Envelope.augment] at h
    by_cases hc : e.npts ≠ e'.npts ∨ e.nsup ≠ e'.nsup
    · rw [if_pos hc] at h; cases h
    rw [if_neg hc] at h
    obtain rfl := Except.ok.inj h
    exact ⟨⟨min_le_left _ _, le_max_left _ _, min_le_left _ _, le_max_left _ _⟩,
      fun _ => ⟨min_le_right _ _, le_max_right _ _, min_le_right _ _, le_max_right _ _⟩⟩
  | sum =>
    simp only [Envelope.merge, Envelope.sum] at h
    by_cases hc : e.npts ≠ e'.npts ∨ e.nsup ≠ e'.nsup
    · rw [if_pos hc] at h; cases h
    rw [if_neg hc] at h
    obtain rfl := Except.ok.inj h
    refine ⟨⟨?_, ?_, ?_, ?_⟩, fun hz => ?_⟩
    iterate 4 (dsimp only; linarith)
    obtain ⟨y1, y2, y3, y4⟩ := hz k
    refine ⟨?_, ?_, ?_, ?_⟩ <;> (dsimp only; linarith)

theorem InBand.wider {e o : Envelope K} {l : List (EnvRes K)} (h : InBand e l)
    (hw : ∀ k, o.Mmin k ≤ e.Mmin k ∧ e.Mmax k ≤ o.Mmax k ∧ o.Vmin k ≤ e.Vmin k ∧ e.Vmax k ≤ o.Vmax k) :
    InBand o l := by
  refine ⟨fun k => ?_, fun r hr k => ?_⟩
  · obtain ⟨a, b, c, d⟩ := h.zero k
    obtain ⟨a', b', c', d'⟩ := hw k
    exact ⟨a'.trans a, b.trans b', c'.trans c, d.trans d'⟩
  · obtain ⟨a, b, c, d⟩ := h.res r hr k
    obtain ⟨a', b', c', d'⟩ := hw k
    exact ⟨a'.trans a, b.trans b', c'.trans c, d.trans d'⟩

theorem mergeAll_wider {mode : CombineMode} {o : Envelope K} (es : List (Envelope K)) :
    ∀ e : Envelope K, (∀ e' ∈ es, ∃ l', InBand e' l') → e.mergeAll mode es = .ok o → ∀ k,
      o.Mmin k ≤ e.Mmin k ∧ e.Mmax k ≤ o.Mmax k ∧ o.Vmin k ≤ e.Vmin k ∧ e.Vmax k ≤ o.Vmax k := by
  induction es with
  | nil =>
    intro e _ h k
    obtain rfl := Except.ok.inj h
    exact ⟨le_rfl, le_rfl, le_rfl, le_rfl⟩
  | cons e1 es ih =>
    intro e he h k
    unfold Envelope.mergeAll at h
    cases hm : e.merge mode e1 with
    | error err => rw [hm] at h; cases h
    | ok e2 =>
      rw [hm] at h
      obtain ⟨l', hl'⟩ := he e1 (by simp)
      obtain ⟨a, b, c, d⟩ := ih e2 (fun e' h' => he e' (by simp [h'])) h k
      obtain ⟨⟨a', b', c', d'⟩, -⟩ := merge_wider hl' hm k
      exact ⟨a.trans a', b'.trans b, c.trans c', d'.trans d⟩

theorem Enveloped.inBand {p : PEnv K} (hp : Enveloped p) : InBand p.env p.res := by
  induction hp with
  | @new l p h =>
    unfold PEnv.new at h
    cases hn : Envelope.new l with
    | error e => rw [hn] at h; cases h
    | ok e =>
      rw [hn] at h
      obtain rfl := Except.ok.inj h
      obtain ⟨hs, -⟩ := Envelope.new_spec hn
      exact ⟨fun k => ⟨(hs.vm k).Mmin.nonpos, (hs.vm k).Mmax.nonneg, (hs.vm k).Vmin.nonpos,
        (hs.vm k).Vmax.nonneg⟩, fun r hr k => (C27_envelope_bounds l e hn r hr).1 k⟩
  | @merge mode p q o hp hq h ih ih' =>
    unfold PEnv.merge at h
    cases hm : p.env.merge mode q.env with
    | error e => rw [hm] at h; cases h
    | ok e =>
      rw [hm] at h
      obtain rfl := Except.ok.inj h
      exact ih.wider fun k => (merge_wider ih' hm k).1
  | @combine mode ps o hp h ih =>
    cases ps with
    | nil => cases h
    | cons p ps =>
      unfold PEnv.combine at h
      dsimp only at h
      cases hm : Envelope.combine mode ((p :: ps).map PEnv.env) with
      | error e => rw [hm] at h; cases h
      | ok e =>
        rw [hm] at h
        obtain rfl := Except.ok.inj h
        dsimp only
        rw [List.map_cons] at hm
        unfold Envelope.combine Envelope.mergeAll at hm
        dsimp only at hm
        cases h1 : p.env.zeroLike.merge mode p.env with
        | error err => rw [h1] at hm; cases hm
        | ok e1 =>
          rw [h1] at hm
          have hb := ih p (by simp)
          refine hb.wider fun k => ?_
          have hz : ∀ k, p.env.zeroLike.Mmin k ≤ 0 ∧ 0 ≤ p.env.zeroLike.Mmax k ∧
              p.env.zeroLike.Vmin k ≤ 0 ∧ 0 ≤ p.env.zeroLike.Vmax k := fun k =>
            ⟨le_rfl, le_rfl, le_rfl, le_rfl⟩
          obtain ⟨a, b, c, d⟩ := (merge_wider hb h1 k).2 hz
          obtain ⟨a', b', c', d'⟩ := mergeAll_wider (ps.map PEnv.env) e1 (by
            intro e' he'
            obtain ⟨q, hq, rfl⟩ := List.mem_map.1 he'
            exact ⟨q.res, ih q (by simp [hq])⟩) hm k
          exact ⟨a'.trans a, b.trans b', c'.trans c, d.trans d'⟩

/-- The curve of an array over the stations. -/
def IsCurve (e : Envelope K) (f : ℕ → K) (c : List (K × K)) : Prop :=
  c.length = e.npts ∧ ∀ k < e.npts, c[k]? = some (e.x k, f k)

theorem isCurve (e : Envelope K) (f : ℕ → K) : IsCurve e f (e.curve f) := by
  refine ⟨by simp [Envelope.curve], fun k hk => ?_⟩
  simp [Envelope.curve, hk]

/-- **C138**, `Envelopes.plot` with either backend: a moment panel, with sagging below the zero
line, and a shear panel draw the greatest and the least value at every station (after, with
matplotlib, the zero line); nothing else is drawn except, on request, curves of single analyses,
and all these lie between the two, for every envelope made from results by any merging. -/
theorem C138_envelope (avail : Bool) (dflt : Backend) (arg : Option (List Char)) (us : UnitSystem)
    (each : Bool) (p : PEnv K) (hp : Enveloped p) (out : List (Panel K))
    (h : plotEnvelope avail dflt arg us each p = .ok out) :
    ∃ pM pV zs hiM loM hiV loV cM cV, out = [pM, pV] ∧
      IsLabel "Bending Moment" us.moment pM.ylabel ∧ IsLabel "Shear Force" us.force pV.ylabel ∧
      (∀ M : K, 0 < M → pM.height M < 0) ∧ (∀ V : K, 0 < V → 0 < pV.height V) ∧
      pM.curves = zs ++ hiM :: loM :: cM ∧ pV.curves = zs ++ hiV :: loV :: cV ∧
      (∀ c ∈ zs, ∀ q ∈ c, q.2 = 0) ∧
      IsCurve p.env p.env.Mmax hiM ∧ IsCurve p.env p.env.Mmin loM ∧
      IsCurve p.env p.env.Vmax hiV ∧ IsCurve p.env p.env.Vmin loV ∧
      (each = false → cM = [] ∧ cV = []) ∧
      (∀ c ∈ cM, ∃ r ∈ p.res, IsCurve p.env r.M c ∧ ∀ k, p.env.Mmin k ≤ r.M k ∧ r.M k ≤ p.env.Mmax k) ∧
      (∀ c ∈ cV, ∃ r ∈ p.res, IsCurve p.env r.V c ∧ ∀ k, p.env.Vmin k ≤ r.V k ∧ r.V k ≤ p.env.Vmax k) := by
  have hb := hp.inBand
  have hM : ∀ q : Panel K, q.inverted = true → ∀ M : K, 0 < M → q.height M < 0 := by
    intro q hq M hM
    simp only [Panel.height, hq, if_true]; linarith
  have hV : ∀ q : Panel K, q.inverted = false → ∀ V : K, 0 < V → 0 < q.height V := by
    intro q hq V hV
    simp only [Panel.height, hq, Bool.false_eq_true, if_false]; exact hV
  unfold plotEnvelope at h
  by_cases hn : p.env.nres < 1
  · rw [if_pos hn] at h; cases h
  rw [if_neg hn] at h
  cases hbk : resolveBackend dflt arg with
  | error e => rw [hbk] at h; cases h
  | ok b =>
    rw [hbk] at h
    cases b with
    | plotly =>
      dsimp only at h
      by_cases ha : avail
      · rw [if_pos ha] at h
        obtain rfl := Except.ok.inj h
        exact ⟨⟨us.momentAxis, [p.env.curve p.env.Mmax, p.env.curve p.env.Mmin], true, true, none⟩,
          ⟨us.shearAxis, [p.env.curve p.env.Vmax, p.env.curve p.env.Vmin], false, true,
            some us.distanceAxis⟩, [], _, _, _, _, [], [], rfl, isLabel_suffix _ _,
          isLabel_suffix _ _, hM _ rfl, hV _ rfl, rfl, rfl, by simp, isCurve _ _, isCurve _ _,
          isCurve _ _, isCurve _ _, fun _ => ⟨rfl, rfl⟩, by simp, by simp⟩
      · rw [if_neg ha] at h; cases h
    | matplotlib =>
      obtain rfl := Except.ok.inj h
      refine ⟨⟨us.momentAxis, [zeroLine (p.env.x (p.env.npts - 1)), p.env.curve p.env.Mmax,
            p.env.curve p.env.Mmin] ++ (if each then p.res else []).map fun r => p.env.curve r.M,
            true, false, none⟩,
          ⟨us.shearAxis, [zeroLine (p.env.x (p.env.npts - 1)), p.env.curve p.env.Vmax,
            p.env.curve p.env.Vmin] ++ (if each then p.res else []).map fun r => p.env.curve r.V,
            false, false, some us.distanceAxis⟩,
          [zeroLine (p.env.x (p.env.npts - 1))], _, _, _, _, _, _, rfl, isLabel_suffix _ _,
          isLabel_suffix _ _, hM _ rfl, hV _ rfl, rfl, rfl, ?_, isCurve _ _, isCurve _ _,
          isCurve _ _, isCurve _ _, ?_, ?_, ?_⟩
      · intro c hc; rw [List.mem_singleton.1 hc]; exact zeroLine_zero _
      · intro he; subst he; exact ⟨rfl, rfl⟩
      · intro c hc
        simp only [List.nil_append, List.append_eq] at hc
        obtain ⟨r, hr, rfl⟩ := List.mem_map.1 hc
        have hr' : r ∈ p.res := by
          split_ifs at hr
          · exact hr
          · simp at hr
        exact ⟨r, hr', isCurve _ _, fun k => ⟨(hb.res r hr' k).1, (hb.res r hr' k).2.1⟩⟩
      · intro c hc
        simp only [List.nil_append, List.append_eq] at hc
        obtain ⟨r, hr, rfl⟩ := List.mem_map.1 hc
        have hr' : r ∈ p.res := by
          split_ifs at hr
          · exact hr
          · simp at hr
        exact ⟨r, hr', isCurve _ _, fun k => ⟨(hb.res r hr' k).2.2.1, (hb.res r hr' k).2.2.2⟩⟩

/-- **C138**, `each=True` on an envelope made from results shows every one of them (with
matplotlib). -/
theorem C138_each_partial (avail : Bool) (dflt : Backend) (arg : Option (List Char))
    (us : UnitSystem) (l : List (EnvRes K)) (p : PEnv K) (hl : PEnv.new l = .ok p)
    (hb : resolveBackend dflt arg = .ok .matplotlib) :
    ∃ pM pV, plotEnvelope avail dflt arg us true p = .ok [pM, pV] ∧
      ∀ r ∈ l, (∃ c ∈ pM.curves, IsCurve p.env r.M c) ∧ ∃ c ∈ pV.curves, IsCurve p.env r.V c := by
  unfold PEnv.new at hl
  cases hn : Envelope.new l with
  | error e => rw [hn] at hl; cases hl
  | ok e =>
    rw [hn] at hl
    obtain rfl := Except.ok.inj hl
    have hne : ¬ e.nres < 1 := by
      obtain ⟨-, h2, -⟩ := Envelope.new_spec hn
      cases l with
      | nil => cases hn
      | cons r l => rw [h2]; simp
    unfold plotEnvelope
    rw [if_neg hne, hb]
    refine ⟨_, _, rfl, fun r hr => ⟨⟨e.curve r.M, ?_, isCurve _ _⟩, ⟨e.curve r.V, ?_, isCurve _ _⟩⟩⟩
    · dsimp only [if_true]
      exact List.mem_append_right _ (List.mem_map.2 ⟨r, hr, rfl⟩)
    · dsimp only [if_true]
      exact List.mem_append_right _ (List.mem_map.2 ⟨r, hr, rfl⟩)

/-- One result with one station at `x = 0`. -/
def exOne (M V : ℚ) : EnvRes ℚ := ⟨1, fun _ => 0, fun _ => V, fun _ => M, 1, fun _ => 0, [1]⟩

/-- **C138 violation**, `each=True` after `a | b` (and `a + b`) draws the analyses of `a` only, even
the one that governs may be missing: here the moment of the second envelope, which is the drawn
maximum, is not among the single curves. -/
theorem C138_each_violation : ∃ a b o : PEnv ℚ, PEnv.new [exOne 1 0] = .ok a ∧
    PEnv.new [exOne 2 0] = .ok b ∧ PEnv.combine .envelope [a, b] = .ok o ∧ o.env.Mmax 0 = 2 ∧
    o.res.map (fun r => r.M 0) = [1] := by
  refine ⟨⟨_, [exOne 1 0]⟩, ⟨_, [exOne 2 0]⟩, ⟨_, [exOne 1 0]⟩, rfl, rfl, rfl, ?_, rfl⟩
  decide +kernel

/-- **C138**, `plot_coincidents` of an envelope made from results: the right axes show, at every
station, the value of the other effect in an analysis that attains the extreme on the left (zero
where the extreme is zero); moments are drawn with sagging below on both sides, shears upright. -/
theorem C138_coincidents_partial (us : UnitSystem) (l : List (EnvRes K)) (e : Envelope K)
    (hl : Envelope.new l = .ok e) :
    ∃ m mt v vt, plotCoincidents us e = .ok ((m, mt), (v, vt)) ∧
      (∀ y : K, 0 < y → m.height y < 0 ∧ 0 < mt.height y ∧ 0 < v.height y ∧ vt.height y < 0) ∧
      IsLabel "Bending Moment" us.moment m.ylabel ∧ IsLabel "Shear Force" us.force v.ylabel ∧
      IsLabel "Coincident Shear Force" us.force mt.ylabel ∧
      IsLabel "Coincident Bending Moment" us.moment vt.ylabel ∧
      ∃ z Mx Mn VMx VMn Vx Vn MVx MVn, m.curves = [z, Mx, Mn] ∧ mt.curves = [VMx, VMn] ∧
        v.curves = [z, Vx, Vn] ∧ vt.curves = [MVx, MVn] ∧ (∀ q ∈ z, q.2 = 0) ∧
        ∀ k < e.npts, ∃ a b c d a' b' c' d' : K,
          Mx[k]? = some (e.x k, a) ∧ VMx[k]? = some (e.x k, a') ∧
          Mn[k]? = some (e.x k, b) ∧ VMn[k]? = some (e.x k, b') ∧
          Vx[k]? = some (e.x k, c) ∧ MVx[k]? = some (e.x k, c') ∧
          Vn[k]? = some (e.x k, d) ∧ MVn[k]? = some (e.x k, d') ∧
          IsMax0 (fun r => r.M k) l a ∧ Coincident (fun r => r.M k) (fun r => r.V k) l a a' ∧
          IsMin0 (fun r => r.M k) l b ∧ Coincident (fun r => r.M k) (fun r => r.V k) l b b' ∧
          IsMax0 (fun r => r.V k) l c ∧ Coincident (fun r => r.V k) (fun r => r.M k) l c c' ∧
          IsMin0 (fun r => r.V k) l d ∧ Coincident (fun r => r.V k) (fun r => r.M k) l d d' := by
  obtain ⟨hs, h2, -⟩ := Envelope.new_spec hl
  have hne : ¬ e.nres < 1 := by
    cases l with
    | nil => cases hl
    | cons r l => rw [h2]; simp
  have hlab : ∀ w u : String, IsLabel ("Coincident " ++ w) u ("Coincident " ++ (w ++ unitSuffix u)) := by
    intro w u
    rw [← String.append_assoc]
    exact isLabel_suffix _ _
  unfold plotCoincidents
  rw [if_neg hne]
  refine ⟨_, _, _, _, rfl, fun y hy => ?_, isLabel_suffix _ _, isLabel_suffix _ _,
    hlab "Shear Force" us.force, hlab "Bending Moment" us.moment, _, _, _, _, _, _, _, _, _, rfl, rfl, rfl,
    rfl, zeroLine_zero _, fun k hk => ?_⟩
  · simp only [Panel.height, Bool.false_eq_true, if_true, if_false]
    exact ⟨by linarith, hy, hy, by linarith⟩
  · exact ⟨_, _, _, _, _, _, _, _, (isCurve _ _).2 k hk, (isCurve _ _).2 k hk, (isCurve _ _).2 k hk,
      (isCurve _ _).2 k hk, (isCurve _ _).2 k hk, (isCurve _ _).2 k hk, (isCurve _ _).2 k hk,
      (isCurve _ _).2 k hk, (hs.vm k).Mmax, (hs.vm k).VcoMmax, (hs.vm k).Mmin, (hs.vm k).VcoMmin,
      (hs.vm k).Vmax, (hs.vm k).McoVmax, (hs.vm k).Vmin, (hs.vm k).McoVmin⟩

/-- **C138 violation**, `plot_coincidents` of `a + b`: the summed extremes are drawn with coincident
values of zero, although in every pair of analyses the other effect is not zero. -/
theorem C138_coincidents_violation : ∃ a b o : PEnv ℚ, PEnv.new [exOne 1 3] = .ok a ∧
    PEnv.new [exOne 2 5] = .ok b ∧ PEnv.combine .sum [a, b] = .ok o ∧ o.env.Mmax 0 = 3 ∧
    o.env.VcoMmax 0 = 0 := by
  refine ⟨⟨_, [exOne 1 3]⟩, ⟨_, [exOne 2 5]⟩, ⟨_, [exOne 1 3]⟩, rfl, rfl, rfl, ?_, rfl⟩
  decide +kernel

/-! ### C139 -/

theorem lower_writes (w : String) (hw : ∀ c ∈ w.toList, 97 ≤ c.toNat ∧ c.toNat ≤ 122)
    (s : List Char) : pyLower s = w.toList ↔ Writes w s := by
  have hu : ∀ c ∈ w.toList, c.toUpper.toNat + 32 = c.toNat := by
    intro c hc
    obtain ⟨h1, h2⟩ := hw c hc
    unfold Char.toUpper
    rw [dif_pos ⟨h1, h2⟩]
    change (c.val + ('A'.val - 'a'.val)).toNat + 32 = _
    rw [UInt32.toNat_add, show ('A'.val - 'a'.val).toNat = 2^32 - 32 from rfl]
    change (c.toNat + _) % _ + 32 = _
    omega
  unfold Writes bothCases pyLower
  generalize w.toList = l at hw hu
  induction l generalizing s with
  | nil => cases s <;> simp
  | cons d l ih =>
    cases s with
    | nil => simp
    | cons c s =>
      simp only [List.map_cons, List.cons.injEq, List.forall₂_cons]
      have hi := ih s (fun c hc => hw c (by simp [hc])) (fun c hc => hu c (by simp [hc]))
      refine and_congr ?_ hi
      rw [toLower_eq c d (hw d (by simp)).1 (hw d (by simp)).2, char_eq_iff c d.toUpper]
      have := hu d (by simp)
      constructor <;> rintro (h | h)
      · exact Or.inl h
      · right; omega
      · exact Or.inl h
      · right; omega

theorem find_iff (s : List Char) (b : Backend) : Backend.find (pyLower s) = some b ↔ Means s b := by
  have h1 := lower_writes "matplotlib" (by decide) s
  have h2 := lower_writes "plotly" (by decide) s
  have hne : "matplotlib".toList ≠ "plotly".toList := by decide
  unfold Backend.find
  cases b with
  | matplotlib =>
    unfold Means
    rw [← h1]
    split_ifs with ha hb <;> simp_all
  | plotly =>
    unfold Means
    rw [← h2]
    split_ifs with ha hb <;> simp_all

theorem find_none (s : List Char) : Backend.find (pyLower s) = none ↔ ∀ b, ¬ Means s b := by
  constructor
  · intro h b hb
    rw [(find_iff s b).2 hb] at h
    cases h
  · intro h
    cases hf : Backend.find (pyLower s) with
    | none => rfl
    | some b => exact absurd ((find_iff s b).1 hf) (h b)

/-- A call of `set_backend` with the availability of plotly at that time. -/
structure SetCall where
  avail : Bool
  name : List Char

/-- The default after the calls, most recent last, from a freshly imported module
(`_default_backend = "matplotlib"`, `plotting.py` 30). -/
def runBackend (ops : List SetCall) : Backend :=
  ops.foldl (fun d o => (setBackend o.avail d o.name).1) .matplotlib

/-- The call is one that selects `b`. -/
def SetCall.Selects (o : SetCall) (b : Backend) : Prop :=
  Means o.name b ∧ (b = .plotly → o.avail = true)

theorem setBackend_selects (o : SetCall) (d b : Backend) (h : o.Selects b) :
    setBackend o.avail d o.name = (b, .ok ()) := by
  unfold setBackend
  rw [(find_iff o.name b).2 h.1]
  cases b with
  | matplotlib => rfl
  | plotly =>
    dsimp only
    rw [if_pos (h.2 rfl)]

theorem setBackend_fails (o : SetCall) (d : Backend) (h : ∀ b, ¬ o.Selects b) :
    ∃ e, setBackend o.avail d o.name = (d, .error e) ∧
      (e = .noModule ↔ Means o.name .plotly ∧ o.avail = false) := by
  unfold setBackend
  cases hf : Backend.find (pyLower o.name) with
  | none => exact ⟨.value, rfl, by simp [(find_none _).1 hf .plotly]⟩
  | some b =>
    have hm := (find_iff o.name b).1 hf
    cases b with
    | matplotlib => exact absurd ⟨hm, by simp⟩ (h .matplotlib)
    | plotly =>
      have ha : ¬ o.avail = true := fun ha => h .plotly ⟨hm, fun _ => ha⟩
      dsimp only
      rw [if_neg ha]
      exact ⟨.noModule, rfl, by simp [hm, Bool.not_eq_true _ ▸ ha]⟩

/-- **C139**, `set_backend`: a call succeeds exactly for the names of the backends in any case,
and for plotly only if it can be imported; then it makes that backend the default.  Otherwise it
raises, `ModuleNotFoundError` exactly for an unavailable plotly, and leaves the default alone. -/
theorem C139_set (avail : Bool) (d : Backend) (s : List Char) :
    (∀ b, (∃ u, setBackend avail d s = (b, .ok u)) ↔
      Means s b ∧ (b = .plotly → avail = true)) ∧
    (∀ d' e, setBackend avail d s = (d', .error e) → d' = d ∧
      (e = .noModule ↔ Means s .plotly ∧ avail = false)) := by
  by_cases h : ∃ b, SetCall.Selects ⟨avail, s⟩ b
  · obtain ⟨b, hb⟩ := h
    have hs := setBackend_selects ⟨avail, s⟩ d b hb
    dsimp only at hs
    refine ⟨fun b' => ⟨?_, fun hb' => ⟨(), setBackend_selects ⟨avail, s⟩ d b' hb'⟩⟩, ?_⟩
    · rintro ⟨u, hu⟩
      rw [hs] at hu
      obtain rfl := (Prod.mk.inj hu).1
      exact hb
    · intro d' e he
      rw [hs] at he
      cases (Prod.mk.inj he).2
  · push Not at h
    obtain ⟨e, he, hm⟩ := setBackend_fails ⟨avail, s⟩ d h
    dsimp only at he hm
    refine ⟨fun b' => ⟨?_, fun hb' => absurd hb' (h b')⟩, ?_⟩
    · rintro ⟨u, hu⟩
      rw [he] at hu
      cases (Prod.mk.inj hu).2
    · intro d' e' he'
      rw [he] at he'
      obtain ⟨rfl, h2⟩ := Prod.mk.inj he'
      cases h2
      exact ⟨rfl, hm⟩

/-- **C139**, the default backend after any calls is the one selected by the last call that
selected one, and matplotlib if there was none. -/
theorem C139_default (ops : List SetCall) :
    (∀ b pre o post, ops = pre ++ o :: post → o.Selects b → (∀ q ∈ post, ∀ b', ¬ q.Selects b') →
      runBackend ops = b) ∧
    ((∀ q ∈ ops, ∀ b, ¬ q.Selects b) → runBackend ops = .matplotlib) := by
  have key : ∀ (l : List SetCall) (d : Backend), (∀ q ∈ l, ∀ b, ¬ q.Selects b) →
      l.foldl (fun d o => (setBackend o.avail d o.name).1) d = d := by
    intro l
    induction l with
    | nil => intro d _; rfl
    | cons q l ih =>
      intro d h
      obtain ⟨e, he, -⟩ := setBackend_fails q d (h q (by simp))
      rw [List.foldl_cons, he]
      exact ih d fun q' hq' => h q' (by simp [hq'])
  refine ⟨?_, key ops _⟩
  rintro b pre o post rfl ho hp
  unfold runBackend
  rw [List.foldl_append, List.foldl_cons, setBackend_selects o _ b ho]
  exact key post b hp

/-- **C139**, the argument of a plotting call: a name in any case is used whatever the default,
an unknown name is refused with a `ValueError`, and no name, or an empty one, means the default. -/
theorem C139_resolve (d : Backend) (s : List Char) :
    resolveBackend d none = .ok d ∧
    (∀ b, Means s b → resolveBackend d (some s) = .ok b) ∧
    ((∀ b, ¬ Means s b) → s ≠ [] → resolveBackend d (some s) = .error .value) := by
  refine ⟨rfl, fun b hb => ?_, fun h hs => ?_⟩
  · unfold resolveBackend
    cases s with
    | nil => cases b <;> simp [Means, Writes, bothCases] at hb
    | cons c s =>
      dsimp only
      rw [(find_iff _ b).2 hb]
  · unfold resolveBackend
    cases s with
    | nil => exact absurd rfl hs
    | cons c s =>
      dsimp only
      rw [(find_none _).2 h]

/-- **C139**, plots with the default backend do not fail as long as plotly, once it was there,
stays installed. -/
theorem C139_default_usable (ops : List SetCall) (avail : Bool)
    (hmono : ∀ o ∈ ops, o.avail = true → avail = true) (us : UnitSystem) (L : K) (sr : Bool)
    (vs : List (List (FStn K))) :
    ∃ ps, plotResults avail (runBackend ops) none us L sr (some vs) = .ok (some ps) := by
  have hd : runBackend ops = .plotly → avail = true := by
    have : ∀ (l : List SetCall) (d : Backend), (∀ o ∈ l, o.avail = true → avail = true) →
        (d = .plotly → avail = true) →
        l.foldl (fun d o => (setBackend o.avail d o.name).1) d = .plotly → avail = true := by
      intro l
      induction l with
      | nil => intro d _ h1 h2; exact h1 h2
      | cons q l ih =>
        intro d h1 h2 h3
        rw [List.foldl_cons] at h3
        refine ih _ (fun o ho => h1 o (by simp [ho])) ?_ h3
        intro h4
        by_cases hq : ∃ b, q.Selects b
        · obtain ⟨b, hb⟩ := hq
          rw [setBackend_selects q d b hb] at h4
          exact h1 q (by simp) (hb.2 h4)
        · push Not at hq
          obtain ⟨e, he, -⟩ := setBackend_fails q d hq
          rw [he] at h4
          exact h2 h4
    exact this ops _ hmono (by simp)
  unfold plotResults
  dsimp only
  rw [(C139_resolve _ []).1]
  cases hb : runBackend ops with
  | matplotlib => exact ⟨_, rfl⟩
  | plotly =>
    dsimp only
    rw [if_pos (hd hb)]
    exact ⟨_, rfl⟩

/-- **C139 violation**: `set_backend("")` is refused as an unknown backend, whereas a plotting call
with `backend=""` silently uses the default. -/
theorem C139_empty_violation (avail : Bool) (d : Backend) :
    setBackend avail d [] = (d, .error .value) ∧ resolveBackend d (some []) = .ok d := ⟨rfl, rfl⟩

/-! ### Instances -/

/-- A single span of length 2 with three stations, one of which is doubled at either end. -/
def exShown : List (List (FStn ℚ)) :=
  [[⟨0, 0, 0, 0, 0⟩, ⟨0, 0, 5, -1, 0⟩, ⟨1, 4, 0, 0, -2⟩, ⟨2, 0, -5, 1, 0⟩, ⟨2, 0, 0, 0, 0⟩]]

example : ∃ ps, plotResults false .matplotlib none UnitSystem.SI (2 : ℚ) true (some exShown)
    = .ok (some ps) := ⟨_, rfl⟩

example : ∃ ps, plotResults true .matplotlib (some "Plotly".toList) UnitSystem.US_KIP_FT (2 : ℚ) true
    (some exShown) = .ok (some ps) := ⟨_, rfl⟩

/-- In SI units the deflection of the middle is drawn in millimetres. -/
example : scaledCurve UnitSystem.SI exShown = [(0, 0), (1, -2000), (2, 0)] := by decide +kernel

example : SetCall.Selects ⟨true, "PlotLy".toList⟩ .plotly :=
  ⟨(lower_writes "plotly" (by decide) _).1 (by decide), fun _ => rfl⟩

example : ∀ b, ¬ SetCall.Selects ⟨true, "bokeh".toList⟩ b := by
  intro b hb
  have := (find_iff _ b).2 hb.1
  revert this
  cases b <;> decide

example : ∃ p : PEnv ℚ, Enveloped p ∧ ∃ out, plotEnvelope false .matplotlib none UnitSystem.SI true p
    = .ok out := ⟨_, .new (l := [exOne 1 3, exOne (-2) 1]) rfl, _, rfl⟩

end PyCBA
