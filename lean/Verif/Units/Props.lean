import Verif.Units.Model
import Verif.Build.Text

/-!
C71: the choice of display units.
-/

set_option linter.unusedSectionVars false
set_option linter.unusedSimpArgs false

namespace PyCBA

/-- The separators that are not told apart. -/
def IsSep (c : Char) : Prop := c = '-' ∨ c = '_' ∨ c = ' '

/-- The capital `c` of the small letter `d`. -/
def IsCapitalOf (c d : Char) : Prop := 65 ≤ c.toNat ∧ c.toNat ≤ 90 ∧ d.toNat = c.toNat + 32

/-- Characters that are not told apart. -/
def Like (c d : Char) : Prop :=
  c = d ∨ IsCapitalOf c d ∨ IsCapitalOf d c ∨ IsSep c ∧ IsSep d

/-- A word that neither begins nor ends with white space. -/
def Trimmed (m : List Char) : Prop :=
  (∀ c, m.head? = some c → pySpace c = false) ∧ ∀ c, m.getLast? = some c → pySpace c = false

/-- Two ways to write a name: they differ in white space around it, in case, and in the
separators used. -/
def SameName (s t : List Char) : Prop :=
  ∃ pre m post pre' m' post', s = pre ++ m ++ post ∧ t = pre' ++ m' ++ post' ∧
    (∀ c ∈ pre, pySpace c) ∧ (∀ c ∈ post, pySpace c) ∧
    (∀ c ∈ pre', pySpace c) ∧ (∀ c ∈ post', pySpace c) ∧
    Trimmed m ∧ Trimmed m' ∧ List.Forall₂ Like m m'

theorem pyStrip_trimmed (pre mid post : List Char) (h1 : ∀ c ∈ pre, pySpace c)
    (h2 : ∀ c ∈ post, pySpace c) (hm : Trimmed mid) : pyStrip (pre ++ mid ++ post) = mid := by
  cases mid with
  | nil => exact pyStrip_eq pre [] post h1 h2 (by simp)
  | cons a mid =>
    unfold pyStrip
    rw [List.append_assoc, dropWhile_all _ _ h1, List.cons_append, List.dropWhile_cons,
      hm.1 a rfl]
    simp only [Bool.false_eq_true, if_false]
    rw [← List.cons_append, List.reverse_append, dropWhile_all _ _ (by simpa using h2)]
    have : ((a :: mid).reverse).dropWhile pySpace = (a :: mid).reverse := by
      rcases List.eq_nil_or_concat (a :: mid) with h | ⟨l, b, h⟩
      · cases h
      · rw [h] at hm ⊢
        simp only [List.concat_eq_append, List.reverse_append, List.reverse_cons, List.reverse_nil,
          List.nil_append, List.cons_append, List.dropWhile_cons]
        rw [hm.2 b (by simp)]
        simp
    rw [this, List.reverse_reverse]

theorem trimmed_pyStrip (s : List Char) : Trimmed (pyStrip s) := by
  have key : ∀ (l : List Char) (c : Char), (l.dropWhile pySpace).head? = some c →
      pySpace c = false := by
    intro l
    induction l with
    | nil => simp
    | cons a l ih =>
      intro c
      rw [List.dropWhile_cons]
      cases h : pySpace a with
      | true => simpa using ih c
      | false =>
        intro hc
        have : a = c := by simpa using hc
        rw [← this, h]
  constructor
  · intro c hc
    unfold pyStrip at hc
    rw [List.head?_reverse] at hc
    -- the last of what remains is the last of the string without leading space
    have hsuf : (s.dropWhile pySpace).reverse.dropWhile pySpace <:+ (s.dropWhile pySpace).reverse :=
      List.dropWhile_suffix _
    obtain ⟨p, hp⟩ := hsuf
    have hne : (s.dropWhile pySpace).reverse.dropWhile pySpace ≠ [] := by
      intro h
      rw [h] at hc
      simp at hc
    have : (s.dropWhile pySpace).reverse.getLast? = some c := by
      rw [← hp, List.getLast?_append, hc]
      rfl
    rw [List.getLast?_reverse] at this
    exact key s c this
  · intro c hc
    unfold pyStrip at hc
    rw [List.getLast?_reverse] at hc
    exact key _ c hc

theorem toLower_cases (c : Char) :
    (IsCapitalOf c c.toLower) ∨ (¬ (65 ≤ c.toNat ∧ c.toNat ≤ 90) ∧ c.toLower = c) := by
  unfold Char.toLower
  split
  · rename_i h
    obtain ⟨ha, hb⟩ := h
    have ha : 65 ≤ c.toNat := ha
    have hb : c.toNat ≤ 90 := hb
    left
    refine ⟨ha, hb, ?_⟩
    change (c.val + ('a'.val - 'A'.val)).toNat = _
    rw [UInt32.toNat_add, show ('a'.val - 'A'.val).toNat = 32 from rfl]
    change (c.toNat + _) % _ = _
    omega
  · rename_i h
    exact .inr ⟨h, rfl⟩

theorem normChar_sep {c : Char} (h : IsSep c) : normChar c = '-' := by
  rcases h with rfl | rfl | rfl <;> decide

theorem normChar_of_capital {c d : Char} (h : IsCapitalOf c d) : normChar c = normChar d := by
  have hc : c.toLower = d := by
    rcases toLower_cases c with h1 | h1
    · exact (char_eq_iff _ _).2 (by rw [h1.2.2, h.2.2])
    · exact absurd ⟨h.1, h.2.1⟩ h1.1
  have hd : d.toLower = d := by
    rcases toLower_cases d with h1 | h1
    · have := h1.2.1; have := h.2.2; have := h.1; omega
    · exact h1.2
  unfold normChar
  rw [hc, hd]

theorem Like.norm {c d : Char} (h : Like c d) : normChar c = normChar d := by
  rcases h with rfl | h | h | ⟨h1, h2⟩
  · rfl
  · exact normChar_of_capital h
  · exact (normChar_of_capital h).symm
  · rw [normChar_sep h1, normChar_sep h2]

theorem like_normChar (c : Char) : Like (normChar c) c := by
  unfold normChar
  rcases toLower_cases c with h | ⟨_, h⟩
  · have h1 : c.toLower ≠ '_' := fun e => by
      have := h.2.2
      rw [e] at this
      have h2 := h.1
      have h3 := h.2.1
      change 95 = _ at this
      omega
    have h4 : c.toLower ≠ ' ' := fun e => by
      have := h.2.2
      rw [e] at this
      have h2 := h.1
      change 32 = _ at this
      omega
    simp only [h1, h4, if_false]
    exact .inr (.inr (.inl h))
  · simp only [h]
    by_cases h1 : c = '_'
    · subst h1
      exact .inr (.inr (.inr ⟨by left; decide, by right; left; rfl⟩))
    · by_cases h2 : c = ' '
      · subst h2
        exact .inr (.inr (.inr ⟨by left; decide, by right; right; rfl⟩))
      · simp only [h1, h2, if_false]
        exact .inl rfl

/-- Names are looked up by how they are read, not by how they are written. -/
theorem normalise_eq {s t : List Char} (h : SameName s t) : normaliseName s = normaliseName t := by
  obtain ⟨pre, m, post, pre', m', post', rfl, rfl, h1, h2, h3, h4, h5, h6, h7⟩ := h
  unfold normaliseName
  rw [pyStrip_trimmed _ _ _ h1 h2 h5, pyStrip_trimmed _ _ _ h3 h4 h6]
  clear h5 h6
  induction h7 with
  | nil => rfl
  | cons h _ ih => rw [List.map_cons, List.map_cons, h.norm, ih]

/-- **C71, names** — how a name is written (white space around it, case, `-`, `_` or a space as
separator) does not matter, and a name that is no way to write one of the presets is a
`KeyError`, while each preset name and each way to write it gives that preset.
Missing: repeated spaces inside a name, see `C71_double_space`. -/
theorem C71_names_partial (dflt : UnitSystem) :
    (∀ s t, SameName s t → resolveUnits dflt (.name s) = resolveUnits dflt (.name t)) ∧
    (∀ p ∈ UnitSystem.registry, ∀ s, SameName p.1.toList s →
      resolveUnits dflt (.name s) = .ok p.2) ∧
    (∀ s, (∀ p ∈ UnitSystem.registry, ¬ SameName p.1.toList s) →
      resolveUnits dflt (.name s) = .error .keyError) := by
  have h1 : ∀ s t, SameName s t → resolveUnits dflt (.name s) = resolveUnits dflt (.name t) := by
    intro s t h
    simp only [resolveUnits, normalise_eq h]
  refine ⟨h1, fun p hp s hs => ?_, fun s hs => ?_⟩
  · rw [← h1 _ _ hs]
    have : ∀ p ∈ UnitSystem.registry, resolveUnits dflt (.name p.1.toList) = .ok p.2 := by
      intro p hp
      have key : ∀ p ∈ UnitSystem.registry, (UnitSystem.registry.find? fun q =>
          q.1.toList = normaliseName p.1.toList) = some p := by decide +kernel
      simp only [resolveUnits, key p hp]
    exact this p hp
  · have : (UnitSystem.registry.find? fun p => p.1.toList = normaliseName s) = none := by
      rw [List.find?_eq_none]
      intro p hp he
      have he : p.1.toList = normaliseName s := by simpa using he
      apply hs p hp
      obtain ⟨pre, post, e, h2, h3⟩ := pyStrip_split s
      have htr : ∀ p ∈ UnitSystem.registry, pyStrip p.1.toList = p.1.toList := by decide +kernel
      refine ⟨[], p.1.toList, [], pre, pyStrip s, post, by simp, e, by simp, by simp, h2, h3, ?_,
        trimmed_pyStrip s, ?_⟩
      · rw [← htr p hp]
        exact trimmed_pyStrip _
      · rw [he]
        unfold normaliseName
        generalize pyStrip s = m
        induction m with
        | nil => exact .nil
        | cons c m ih => exact .cons (like_normChar c) ih
    simp only [resolveUnits, this]

theorem runUnits_snoc (ops : List UnitOp) (o : UnitOp) :
    runUnits (ops ++ [o]) = ((o.step (runUnits ops).1).1,
      (runUnits ops).2 ++ [(o.step (runUnits ops).1).2]) := by
  simp [runUnits]

theorem runUnits_length (ops : List UnitOp) : (runUnits ops).2.length = ops.length := by
  induction ops using List.reverseRecOn with
  | nil => rfl
  | append_singleton ops o ih => rw [runUnits_snoc]; simp [ih]

/-- A call in a history that set the units: `set_units` that returned `u`. -/
def SetsAt (ops : List UnitOp) (k : ℕ) (u : UnitSystem) : Prop :=
  (∃ a, ops[k]? = some (.set a)) ∧ (runUnits ops).2[k]? = some (.ok u)

/-- **C71, scope** — after any sequence of calls, `resolve(None)` gives the system returned by
the most recent successful `set_units` (SI if there was none); an explicit system is returned
as it is; and neither a `resolve`, nor a `set_units` that raises, changes the setting. -/
theorem C71_scope (ops : List UnitOp) :
    (∀ k u, SetsAt ops k u → (∀ j v, k < j → ¬ SetsAt ops j v) →
      resolveUnits (runUnits ops).1 .none = .ok u) ∧
    ((∀ k u, ¬ SetsAt ops k u) → resolveUnits (runUnits ops).1 .none = .ok UnitSystem.SI) ∧
    (∀ u, resolveUnits (runUnits ops).1 (.system u) = .ok u) ∧
    (∀ a, (runUnits (ops ++ [.resolve a])).1 = (runUnits ops).1) ∧
    (∀ a e, (runUnits (ops ++ [.set a])).2[ops.length]? = some (.error e) →
      (runUnits (ops ++ [.set a])).1 = (runUnits ops).1) := by
  refine ⟨?_, ?_, fun u => rfl, fun a => by rw [runUnits_snoc]; rfl, ?_⟩
  · induction ops using List.reverseRecOn with
    | nil => rintro k u ⟨⟨a, h⟩, _⟩; simp at h
    | append_singleton ops o ih =>
      intro k u hk hlast
      have hlen := runUnits_length ops
      have hold : ∀ j v, j < ops.length → (SetsAt (ops ++ [o]) j v ↔ SetsAt ops j v) := by
        intro j v hj
        unfold SetsAt
        rw [runUnits_snoc, List.getElem?_append_left hj,
          List.getElem?_append_left (by rw [hlen]; exact hj)]
      have hnew : ∀ v, SetsAt (ops ++ [o]) ops.length v ↔
          (∃ a, o = .set a) ∧ (o.step (runUnits ops).1).2 = .ok v := by
        intro v
        unfold SetsAt
        rw [runUnits_snoc, List.getElem?_append_right le_rfl,
          List.getElem?_append_right (by rw [hlen]), hlen]
        simp
      have hk1 : k < ops.length + 1 := by
        by_contra hc
        obtain ⟨⟨a, h⟩, _⟩ := hk
        rw [List.getElem?_eq_none (by simp; omega)] at h
        cases h
      show Except.ok (runUnits (ops ++ [o])).1 = _
      rw [runUnits_snoc]
      rcases Nat.lt_or_ge k ops.length with h | h
      · have ih' := ih k u ((hold k u h).1 hk) fun j v hj hv => by
          by_cases hj' : j < ops.length
          · exact hlast j v hj ((hold j v hj').2 hv)
          · obtain ⟨⟨a, ha⟩, _⟩ := hv
            rw [List.getElem?_eq_none (by omega)] at ha
            cases ha
        have hno : ∀ v, ¬ SetsAt (ops ++ [o]) ops.length v := fun v => hlast _ v h
        change Except.ok (runUnits ops).1 = _ at ih'
        rw [← ih']
        cases o with
        | get => rfl
        | resolve a => rfl
        | set a =>
          simp only [UnitOp.step]
          cases hr : resolveUnits (runUnits ops).1 a with
          | error e => rfl
          | ok v =>
            exfalso
            apply hno v
            rw [hnew]
            exact ⟨⟨a, rfl⟩, by simp [UnitOp.step, hr]⟩
      · obtain rfl : k = ops.length := by omega
        obtain ⟨⟨a, rfl⟩, h2⟩ := (hnew u).1 hk
        simp only [UnitOp.step] at h2 ⊢
        cases hr : resolveUnits (runUnits ops).1 a with
        | error e => rw [hr] at h2; cases h2
        | ok v => rw [hr] at h2; exact h2
  · induction ops using List.reverseRecOn with
    | nil => intro _; rfl
    | append_singleton ops o ih =>
      intro hno
      have hlen := runUnits_length ops
      have ih' := ih fun k u hk => hno k u <| by
        have hj : k < ops.length := by
          by_contra hc
          obtain ⟨⟨a, h⟩, _⟩ := hk
          rw [List.getElem?_eq_none (by omega)] at h
          cases h
        unfold SetsAt
        rw [runUnits_snoc, List.getElem?_append_left hj,
          List.getElem?_append_left (by rw [hlen]; exact hj)]
        exact hk
      show Except.ok (runUnits (ops ++ [o])).1 = _
      change Except.ok (runUnits ops).1 = _ at ih'
      rw [← ih', runUnits_snoc]
      cases o with
      | get => rfl
      | resolve a => rfl
      | set a =>
        simp only [UnitOp.step]
        cases hr : resolveUnits (runUnits ops).1 a with
        | error e => rfl
        | ok v =>
          exfalso
          apply hno ops.length v
          unfold SetsAt
          rw [runUnits_snoc, List.getElem?_append_right le_rfl,
            List.getElem?_append_right (by rw [hlen]), hlen]
          simp [UnitOp.step, hr]
  · intro a e h
    rw [runUnits_snoc] at h ⊢
    rw [List.getElem?_append_right (by rw [runUnits_length]), runUnits_length] at h
    simp only [UnitOp.step, Nat.sub_self] at h ⊢
    cases hr : resolveUnits (runUnits ops).1 a with
    | error e => rfl
    | ok v => rw [hr] at h; simp at h

/-- C71 on a history: a name in other case and with a space, an unknown name that raises, and
an override. -/
example : (runUnits [.set (.name " US ft".toList), .set (.name "parsec".toList),
      .resolve (.name "N_MM".toList), .get]) =
    (UnitSystem.US_KIP_FT, [.ok UnitSystem.US_KIP_FT, .error .keyError, .ok UnitSystem.SI_N_MM,
      .ok UnitSystem.US_KIP_FT]) := by
  rfl

example : SameName "us-ft".toList " US ft".toList :=
  ⟨[], "us-ft".toList, [], " ".toList, "US ft".toList, [], by simp, by simp, by simp, by simp,
    by simp; decide, by simp, ⟨by simp; decide, by simp; decide⟩, ⟨by simp; decide, by simp; decide⟩,
    by
      refine .cons ?_ (.cons ?_ (.cons ?_ (.cons ?_ (.cons ?_ .nil))))
      · exact .inr (.inr (.inl ⟨by decide, by decide, by decide⟩))
      · exact .inr (.inr (.inl ⟨by decide, by decide, by decide⟩))
      · exact .inr (.inr (.inr ⟨.inl rfl, .inr (.inr rfl)⟩))
      · exact .inl rfl
      · exact .inl rfl⟩

/-- The spaces inside a name are not collapsed (the comment at `units.py` 155-156 says they
are): two spaces for one separator make the name unknown. -/
theorem C71_double_space : resolveUnits UnitSystem.SI (.name "US  ft".toList) = .error .keyError ∧
    resolveUnits UnitSystem.SI (.name "US ft".toList) = .ok UnitSystem.US_KIP_FT := by
  constructor <;> rfl

/-- What a word of a unit-system name says about the units of length and force. -/
def wordMeans (w : String) (u : UnitSystem) : Prop :=
  (w = "in" → u.length = "in") ∧ (w = "ft" → u.length = "ft") ∧ (w = "mm" → u.length = "mm") ∧
  (w = "m" → u.length = "m") ∧ (w = "kip" → u.force = "kip") ∧ (w = "n" → u.force = "N") ∧
  (w = "kn" → u.force = "kN") ∧
  (w = "knm" → u.moment = "kNm" ∧ u.length = "m") ∧ (w = "nmm" → u.force = "N" ∧ u.length = "mm") ∧
  (w = "us" → u.force = "kip" ∧ (u.length = "ft" ∨ u.length = "in")) ∧
  (w = "si" ∨ w = "metric" ∨ w = "eu" ∨ w = "aus" →
    (u.force = "kN" ∧ u.length = "m") ∨ (u.force = "N" ∧ u.length = "mm")) ∧
  (w = "none" ∨ w = "dimensionless" ∨ w = "" → u.force = "" ∧ u.length = "" ∧ u.dispLabel = "" ∧ u.dispScale = 1)

instance (w : String) (u : UnitSystem) : Decidable (wordMeans w u) := by
  unfold wordMeans; infer_instance

/-- Units of length in metres. -/
def metresOf (s : String) : Option ℚ :=
  if s = "m" then some 1 else if s = "mm" then some (1 / 1000) else
  if s = "ft" then some (3048 / 10000) else if s = "in" then some (254 / 10000) else none

/-- A system whose labels fit together: moments in force times length, distributed loads in force
per length, and a displacement in the unit of length, times the scale, is one in the unit of the
displacement label. -/
def UnitSystem.Coherent (u : UnitSystem) : Prop :=
  (u.moment = u.force ++ u.length ∨ u.moment = u.force ++ "·" ++ u.length) ∧
  (u.distributed = u.force ++ "/" ++ u.length ∨ (u.force = "" ∧ u.length = "" ∧ u.distributed = "")) ∧
  ((∃ a b, metresOf u.length = some a ∧ metresOf u.dispLabel = some b ∧ a = u.dispScale * b) ∨
    (u.length = "" ∧ u.dispLabel = "" ∧ u.dispScale = 1))

/-- The words of a name. -/
def nameWords (s : List Char) : List String := (s.splitOn '-').map String.ofList

/-- **C71, meaning** — a name that is accepted gives the units its words say (`us-in` inches,
`si-n-mm` newtons and millimetres, …), with labels and displacement scale that fit together. -/
theorem C71_meaning (dflt : UnitSystem) (s : List Char) (u : UnitSystem)
    (h : resolveUnits dflt (.name s) = .ok u) :
    (∀ w ∈ nameWords (normaliseName s), wordMeans w u) ∧ u.Coherent := by
  have k1 : ∀ p ∈ UnitSystem.registry, ∀ w ∈ nameWords p.1.toList, wordMeans w p.2 := by decide +kernel
  have k2 : ∀ p ∈ UnitSystem.registry, p.2.Coherent := by
    have c1 : UnitSystem.SI.Coherent :=
      ⟨.inl rfl, .inl rfl, .inl ⟨1, 1 / 1000, rfl, rfl, by norm_num [UnitSystem.SI]⟩⟩
    have c2 : UnitSystem.SI_N_MM.Coherent :=
      ⟨.inr rfl, .inl rfl, .inl ⟨1 / 1000, 1 / 1000, rfl, rfl, by norm_num [UnitSystem.SI_N_MM]⟩⟩
    have c3 : UnitSystem.US_KIP_FT.Coherent :=
      ⟨.inr rfl, .inl rfl, .inl ⟨3048 / 10000, 254 / 10000, rfl, rfl, by norm_num [UnitSystem.US_KIP_FT]⟩⟩
    have c4 : UnitSystem.US_KIP_IN.Coherent :=
      ⟨.inr rfl, .inl rfl, .inl ⟨254 / 10000, 254 / 10000, rfl, rfl, by norm_num [UnitSystem.US_KIP_IN]⟩⟩
    have c5 : UnitSystem.NONE.Coherent := ⟨.inl rfl, .inr ⟨rfl, rfl, rfl⟩, .inr ⟨rfl, rfl, rfl⟩⟩
    simp only [UnitSystem.registry, List.forall_mem_cons]
    exact ⟨c1, c1, c1, c1, c1, c1, c2, c2, c2, c3, c3, c3, c3, c4, c4, c5, c5, c5, by simp⟩
  unfold resolveUnits at h
  dsimp only at h
  cases hf : UnitSystem.registry.find? fun p => p.1.toList = normaliseName s with
  | none => rw [hf] at h; cases h
  | some p =>
    rw [hf] at h
    obtain rfl := Except.ok.inj h
    have hp := List.mem_of_find?_eq_some hf
    have he : p.1.toList = normaliseName s := by simpa using List.find?_some hf
    rw [← he]
    exact ⟨k1 p hp, k2 p hp⟩

-- "US In" is accepted and its second word is "in"
example : resolveUnits UnitSystem.SI (.name "US In".toList) = .ok UnitSystem.US_KIP_IN ∧
    "in" ∈ nameWords (normaliseName "US In".toList) := by
  constructor
  · rfl
  · decide +kernel

end PyCBA
