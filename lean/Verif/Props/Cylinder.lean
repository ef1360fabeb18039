import Verif.Model.Cylinder
import Mathlib.Data.List.Sort

/-!
# C75: the layers around a cylinder
-/

noncomputable section

namespace Dream

/-- The rings of a list of discs, outermost first: inner radius (that of the next disc, `r₀` for
the last one), outer radius, mesh size. -/
def Spec.rings (r₀ : ℝ) (l : List (ℝ × ℝ)) : List (ℝ × ℝ × ℝ) :=
  List.zipWith (fun f r => (r, f.1, f.2)) l ((l.map Prod.fst).tail ++ [r₀])

theorem rings_get (r₀ : ℝ) (l : List (ℝ × ℝ)) (i : ℕ) (f : ℝ × ℝ) (h : l[i]? = some f) :
    (Spec.rings r₀ l)[i]? = some ((l[i + 1]?.map Prod.fst).getD r₀, f.1, f.2) := by
  obtain ⟨hi, -⟩ := List.getElem?_eq_some_iff.1 h
  rw [Spec.rings, List.getElem?_zipWith, h]
  by_cases h1 : i + 1 < l.length
  · rw [List.getElem?_append_left (by simp; omega), List.getElem?_tail, List.getElem?_map,
      List.getElem?_eq_getElem h1]
    rfl
  · rw [List.getElem?_append_right (by simp; omega), List.getElem?_eq_none (l := l) (by omega)]
    have : i - (l.map Prod.fst).tail.length = 0 := by simp; omega
    rw [this]
    rfl

theorem linspace_tail (a b : ℝ) (k : ℕ) :
    (linspace a b k).tail = (List.range k).map fun i => a + (i + 1 : ℕ) * ((b - a) / k) := by
  rw [linspace, List.range_succ_eq_map, List.map_cons, List.tail_cons, List.map_map]
  rfl

theorem trRadii_tail (p : CylParams) : p.trRadii.tail = (List.range p.trLevels).map fun i =>
    p.blRadius + (p.trRadius - p.blRadius) * (((i + 1 : ℕ) : ℝ) / p.trLevels) ^ p.trGrowth := by
  rw [CylParams.trRadii, ← List.map_tail, linspace_tail, List.map_map]
  apply List.map_congr_left
  intro i _
  simp only [Function.comp]
  congr 3
  ring

theorem length_tail (p : CylParams) : p.trRadii.tail.length = p.trLevels := by
  rw [trRadii_tail]; simp

/-- The radius of the transition region at level `i`. -/
def CylParams.level (p : CylParams) (i : ℕ) : ℝ :=
  p.blRadius + (p.trRadius - p.blRadius) * ((i : ℝ) / p.trLevels) ^ p.trGrowth

theorem trRadii_eq (p : CylParams) : p.trRadii = (List.range (p.trLevels + 1)).map p.level := by
  rw [CylParams.trRadii, linspace, List.map_map]
  apply List.map_congr_left
  intro i _
  simp only [Function.comp, CylParams.level]
  congr 3
  ring

theorem trFaces_get (p : CylParams) (i : ℕ) (hi : i < p.trLevels) :
    p.trFaces[i]? = some (p.level (p.trLevels - i), p.level (i + 1) - p.level i) := by
  have h1 : p.trRadii.tail.reverse[i]? = some (p.level (p.trLevels - i)) := by
    have e : p.trRadii.tail = (List.range p.trLevels).map fun i => p.level (i + 1) := by
      rw [trRadii_tail]; rfl
    rw [e, List.getElem?_reverse (by simpa using hi)]
    simp only [List.length_map, List.length_range, List.getElem?_map]
    rw [List.getElem?_range (by omega)]
    simp only [Option.map_some]
    congr 2
    omega
  have h2 : (diff p.trRadii)[i]? = some (p.level (i + 1) - p.level i) := by
    rw [diff, trRadii_eq, List.getElem?_zipWith, List.getElem?_tail, List.getElem?_map,
      List.getElem?_map, List.getElem?_range (by omega), List.getElem?_range (by omega)]
    rfl
  rw [CylParams.trFaces, List.zip, List.getElem?_zipWith, h1, h2]

theorem trFaces_length (p : CylParams) : p.trFaces.length = p.trLevels := by
  rw [CylParams.trFaces, List.length_zip, List.length_reverse, length_tail, diff,
    List.length_zipWith, length_tail, trRadii_eq]
  simp

/-- **C75** Which parameters are refused: a negative thickness or a sponge inside the farfield
(`ValueError`), a boundary layer without levels (`ZeroDivisionError`), no transition levels
(`UnboundLocalError`); all others are accepted. -/
theorem C75_accepted (p : CylParams) :
    (∃ L, cylinderLayers p = .ok L) ↔ 0 ≤ p.blThickness ∧
      (p.sponge = true → p.ffFactor ≤ p.spFactor) ∧ (0 < p.blThickness → p.blLevels ≠ 0) ∧
      p.trLevels ≠ 0 := by
  have hl : ∀ f, p.trFaces.getLast? = f → (f = none ↔ p.trLevels = 0) := by
    rintro f rfl
    rw [List.getLast?_eq_none_iff, ← List.length_eq_zero_iff, trFaces_length]
  unfold cylinderLayers
  split_ifs with h1 h2
  · simp [h1]
  · simp only [exists_false, false_iff]
    rintro ⟨-, h, -⟩
    exact absurd (h h2.1) (not_le.2 h2.2)
  · have h3 : p.sponge = true → p.ffFactor ≤ p.spFactor := fun h => not_lt.1 fun h' => h2 ⟨h, h'⟩
    unfold CylParams.blFaces
    split_ifs with h4 h5
    · simp [bind, Except.bind, h4, h5]
    · cases hf : p.trFaces.getLast? with
      | none => simp [bind, Except.bind, (hl _ hf).1 rfl]
      | some f =>
        have : p.trLevels ≠ 0 := fun h => by simpa using (hl _ hf).2 h
        simpa [bind, Except.bind, this, h5] using ⟨not_lt.1 h1, h3⟩
    · cases hf : p.trFaces.getLast? with
      | none => simp [bind, Except.bind, (hl _ hf).1 rfl]
      | some f =>
        have : p.trLevels ≠ 0 := fun h => by simpa using (hl _ hf).2 h
        simpa [bind, Except.bind, this, h4] using ⟨not_lt.1 h1, h3⟩

theorem layers_ok {p : CylParams} {L : CylLayers} (h : cylinderLayers p = .ok L) :
    p.blFaces = .ok L.bl ∧ L.tr = p.trFaces ∧ L.farfield = p.ffFactor * p.radius ∧
      L.outer = p.outerFactor * p.radius ∧
      ∃ f, p.trFaces.getLast? = some f ∧ L.wake = p.trRadius + f.2 := by
  unfold cylinderLayers at h
  split_ifs at h
  cases hb : p.blFaces with
  | error e => rw [hb] at h; cases h
  | ok bl =>
    rw [hb] at h
    simp only [bind, Except.bind] at h
    cases hf : p.trFaces.getLast? with
    | none => rw [hf] at h; cases h
    | some f =>
      rw [hf] at h
      cases h
      exact ⟨rfl, rfl, rfl, rfl, f, rfl, rfl⟩

theorem level_strict {p : CylParams} (ht : p.trLevels ≠ 0) (hr : p.blRadius < p.trRadius)
    (hg : 0 < p.trGrowth) {i j : ℕ} (hij : i < j) : p.level i < p.level j := by
  unfold CylParams.level
  have hn : (0 : ℝ) < p.trLevels := by exact_mod_cast Nat.pos_of_ne_zero ht
  have h1 : ((i : ℝ) / p.trLevels) ^ p.trGrowth < ((j : ℝ) / p.trLevels) ^ p.trGrowth := by
    apply Real.rpow_lt_rpow (by positivity) _ hg
    have : (i : ℝ) < j := by exact_mod_cast hij
    exact div_lt_div_of_pos_right this hn
  have h2 : 0 < p.trRadius - p.blRadius := by linarith
  nlinarith

theorem level_zero {p : CylParams} (hg : 0 < p.trGrowth) : p.level 0 = p.blRadius := by
  simp [CylParams.level, Real.zero_rpow hg.ne']

theorem level_last {p : CylParams} (ht : p.trLevels ≠ 0) : p.level p.trLevels = p.trRadius := by
  have : (p.trLevels : ℝ) ≠ 0 := by exact_mod_cast ht
  simp [CylParams.level, div_self this]

/-- **C75** The discs of the transition region are nested: radii decrease strictly from the
requested transition radius to a radius outside the boundary layer; there are as many as
requested. -/
theorem C75_nested {p : CylParams} {L : CylLayers} (h : cylinderLayers p = .ok L)
    (hr : p.radius + p.blThickness < p.trFactor * p.radius) (hg : 0 < p.trGrowth) :
    L.tr.length = p.trLevels ∧ L.tr.Pairwise (fun f g => g.1 < f.1) ∧
      (L.tr.map Prod.fst).head? = some (p.trFactor * p.radius) ∧
      ∀ f ∈ L.tr, p.radius + p.blThickness < f.1 := by
  replace hr : p.blRadius < p.trRadius := hr
  show L.tr.length = p.trLevels ∧ L.tr.Pairwise (fun f g => g.1 < f.1) ∧
    (L.tr.map Prod.fst).head? = some p.trRadius ∧ ∀ f ∈ L.tr, p.blRadius < f.1
  have ht : p.trLevels ≠ 0 := ((C75_accepted p).1 ⟨L, h⟩).2.2.2
  obtain ⟨-, e, -⟩ := layers_ok h
  rw [e]
  have get : ∀ i (hi : i < p.trFaces.length),
      p.trFaces[i] = (p.level (p.trLevels - i), p.level (i + 1) - p.level i) := by
    intro i hi
    have hi' : i < p.trLevels := by rwa [trFaces_length] at hi
    have := trFaces_get p i hi'
    rw [List.getElem?_eq_getElem hi] at this
    exact Option.some.inj this
  refine ⟨trFaces_length p, ?_, ?_, ?_⟩
  · rw [List.pairwise_iff_getElem]
    intro i j hi hj hij
    rw [get i hi, get j hj]
    have := trFaces_length p
    exact level_strict ht hr hg (by omega)
  · rw [List.head?_map, List.head?_eq_getElem?, trFaces_get p 0 (Nat.pos_of_ne_zero ht)]
    simp [level_last ht]
  · intro f hf
    obtain ⟨i, hi, rfl⟩ := List.mem_iff_getElem.1 hf
    have := trFaces_length p
    rw [get i hi, ← level_zero hg]
    exact level_strict ht hr hg (by omega)

/-- Ring `i` (counted from outside) of the transition region. -/
theorem ring_get (p : CylParams) (hg : 0 < p.trGrowth) (i : ℕ) (hi : i < p.trLevels) :
    (Spec.rings p.blRadius p.trFaces)[i]? = some (p.level (p.trLevels - (i + 1)),
      p.level (p.trLevels - i), p.level (i + 1) - p.level i) := by
  rw [rings_get _ _ _ _ (trFaces_get p i hi)]
  by_cases h : i + 1 < p.trLevels
  · rw [trFaces_get p (i + 1) h]
    rfl
  · rw [List.getElem?_eq_none (by rw [trFaces_length]; omega)]
    have : p.trLevels - (i + 1) = 0 := by omega
    rw [this, level_zero hg]
    rfl

/-- **C75** With growth exponent 1 every ring of the transition region is meshed with its own
thickness. (For other exponents see `C75_fails_sizes`.) -/
theorem C75_sizes_partial {p : CylParams} {L : CylLayers} (h : cylinderLayers p = .ok L)
    (hg : p.trGrowth = 1) :
    ∀ f ∈ Spec.rings (p.radius + p.blThickness) L.tr, f.2.2 = f.2.1 - f.1 := by
  show ∀ f ∈ Spec.rings p.blRadius L.tr, f.2.2 = f.2.1 - f.1
  have ht : p.trLevels ≠ 0 := ((C75_accepted p).1 ⟨L, h⟩).2.2.2
  have hn : (p.trLevels : ℝ) ≠ 0 := by exact_mod_cast ht
  obtain ⟨-, e, -⟩ := layers_ok h
  rw [e]
  intro f hf
  obtain ⟨i, hi⟩ := List.mem_iff_getElem?.1 hf
  have hi' : i < p.trLevels := by
    by_contra hc
    have : (Spec.rings p.blRadius p.trFaces).length ≤ i := by
      have := trFaces_length p
      rw [Spec.rings, List.length_zipWith]
      omega
    rw [List.getElem?_eq_none this] at hi
    cases hi
  rw [ring_get p (by rw [hg]; norm_num) i hi'] at hi
  cases hi
  simp only [CylParams.level, hg, Real.rpow_one]
  rw [Nat.cast_sub (by omega), Nat.cast_sub (by omega)]
  push_cast
  field_simp
  ring

/-- **C75** With growth exponents above 1 (the default is 1.4) the sizes are assigned in reverse
order: the outermost ring is meshed finer than its thickness, the innermost one, next to the
cylinder, coarser. -/
theorem C75_fails_sizes {p : CylParams} {L : CylLayers} (h : cylinderLayers p = .ok L)
    (hr : p.radius + p.blThickness < p.trFactor * p.radius) (hg : 1 < p.trGrowth)
    (hn : 2 ≤ p.trLevels) :
    ∃ a b, (Spec.rings (p.radius + p.blThickness) L.tr)[0]? = some a ∧
      (Spec.rings (p.radius + p.blThickness) L.tr)[p.trLevels - 1]? = some b ∧
      a.2.2 < a.2.1 - a.1 ∧ b.2.1 - b.1 < b.2.2 := by
  replace hr : p.blRadius < p.trRadius := hr
  show ∃ a b, (Spec.rings p.blRadius L.tr)[0]? = some a ∧
    (Spec.rings p.blRadius L.tr)[p.trLevels - 1]? = some b ∧
    a.2.2 < a.2.1 - a.1 ∧ b.2.1 - b.1 < b.2.2
  obtain ⟨-, e, -⟩ := layers_ok h
  rw [e]
  have hg0 : 0 < p.trGrowth := by linarith
  refine ⟨_, _, ring_get p hg0 0 (by omega), ring_get p hg0 (p.trLevels - 1) (by omega), ?_⟩
  have e1 : p.trLevels - 1 + 1 = p.trLevels := by omega
  have e2 : p.trLevels - (p.trLevels - 1) = 1 := by omega
  have key : p.level 1 - p.level 0 < p.level p.trLevels - p.level (p.trLevels - 1) := by
    rw [level_zero hg0, level_last (by omega)]
    unfold CylParams.level
    have hn0 : (0 : ℝ) < p.trLevels := by exact_mod_cast (by omega : 0 < p.trLevels)
    have hn1 : (1 : ℝ) < p.trLevels := by exact_mod_cast (by omega : 1 < p.trLevels)
    rw [Nat.cast_sub (by omega)]
    push_cast
    have x0 : 0 < 1 / (p.trLevels : ℝ) := by positivity
    have x1 : 1 / (p.trLevels : ℝ) < 1 := by rw [div_lt_one hn0]; exact hn1
    have ey : ((p.trLevels : ℝ) - 1) / p.trLevels = 1 - 1 / p.trLevels := by field_simp
    rw [ey]
    have k1 : (1 / (p.trLevels : ℝ)) ^ p.trGrowth < 1 / p.trLevels := by
      have := Real.rpow_lt_rpow_of_exponent_gt x0 x1 hg
      rwa [Real.rpow_one] at this
    have k2 : (1 - 1 / (p.trLevels : ℝ)) ^ p.trGrowth < 1 - 1 / p.trLevels := by
      have := Real.rpow_lt_rpow_of_exponent_gt (x := 1 - 1 / (p.trLevels : ℝ)) (by linarith)
        (by linarith) hg
      rwa [Real.rpow_one] at this
    have h2 : 0 < p.trRadius - p.blRadius := by linarith
    nlinarith
  simp only [e1, e2, Nat.sub_self, zero_add, Nat.sub_zero]
  exact ⟨key, key⟩

/-- **C75** The rings of the boundary layer: each has the requested thickness over the number of
levels, and is meshed with it; the outermost one ends where the transition region begins. Without
thickness there is no boundary layer. -/
theorem C75_boundary_layer {p : CylParams} {L : CylLayers} (h : cylinderLayers p = .ok L) :
    (p.blThickness = 0 → L.bl = []) ∧ (0 < p.blThickness → L.bl.length = p.blLevels ∧
      (L.bl.map Prod.fst).head? = some p.blRadius ∧
      ∀ f ∈ Spec.rings p.radius L.bl, f.2.2 = f.2.1 - f.1 ∧
        f.2.2 = p.blThickness / p.blLevels) := by
  obtain ⟨hb, -⟩ := layers_ok h
  unfold CylParams.blFaces at hb
  refine ⟨fun h0 => ?_, fun h0 => ?_⟩
  · rw [if_neg (by rw [h0]; simp)] at hb
    exact (Except.ok.inj hb).symm
  · rw [if_pos h0] at hb
    split_ifs at hb with hl
    have hn : (p.blLevels : ℝ) ≠ 0 := by exact_mod_cast hl
    set R : ℕ → ℝ := fun i => p.radius + i * (p.blThickness / p.blLevels) with hR
    have get : ∀ i, i < p.blLevels → L.bl[i]? = some (R (p.blLevels - i), p.blThickness / p.blLevels) := by
      intro i hi
      rw [← Except.ok.inj hb, linspace_tail, List.getElem?_map,
        List.getElem?_reverse (by simpa using hi)]
      simp only [List.length_map, List.length_range, List.getElem?_map]
      rw [List.getElem?_range (by omega)]
      have e : p.blLevels - 1 - i + 1 = p.blLevels - i := by omega
      simp only [Option.map_some, e, hR, CylParams.blRadius, add_sub_cancel_left]
    have hlen : L.bl.length = p.blLevels := by
      rw [← Except.ok.inj hb, List.length_map, List.length_reverse, linspace_tail]
      simp
    refine ⟨hlen, ?_, ?_⟩
    · rw [List.head?_map, List.head?_eq_getElem?, get 0 (Nat.pos_of_ne_zero hl)]
      simp only [Option.map_some, Nat.sub_zero, hR, CylParams.blRadius]
      congr 1
      field_simp
    · intro f hf
      obtain ⟨i, hi⟩ := List.mem_iff_getElem?.1 hf
      have hi' : i < p.blLevels := by
        by_contra hc
        have : (Spec.rings p.radius L.bl).length ≤ i := by
          rw [Spec.rings, List.length_zipWith]
          omega
        rw [List.getElem?_eq_none this] at hi
        cases hi
      rw [rings_get _ _ _ _ (get i hi')] at hi
      have hin : (L.bl[i + 1]?.map Prod.fst).getD p.radius = R (p.blLevels - (i + 1)) := by
        by_cases h1 : i + 1 < p.blLevels
        · rw [get _ h1]; rfl
        · rw [List.getElem?_eq_none (by omega)]
          have : p.blLevels - (i + 1) = 0 := by omega
          simp [this, hR]
      rw [hin] at hi
      cases hi
      refine ⟨?_, rfl⟩
      simp only [hR]
      rw [Nat.cast_sub (by omega), Nat.cast_sub (by omega)]
      push_cast
      ring

/-- **C75** The farfield lies inside the outermost circle, and is it without sponge layer. -/
theorem C75_outer {p : CylParams} {L : CylLayers} (h : cylinderLayers p = .ok L)
    (hr : 0 ≤ p.radius) : L.farfield ≤ L.outer ∧ (p.sponge = false → L.farfield = L.outer) := by
  obtain ⟨-, -, h1, h2, -⟩ := layers_ok h
  have h3 := ((C75_accepted p).1 ⟨L, h⟩).2.1
  rw [h1, h2, CylParams.outerFactor]
  cases hs : p.sponge with
  | false => simp
  | true =>
    simp only [if_true, reduceCtorEq, false_implies, and_true]
    exact mul_le_mul_of_nonneg_right (h3 hs) hr

/-- **C75** The wake region encloses the transition region. -/
theorem C75_wake {p : CylParams} {L : CylLayers} (h : cylinderLayers p = .ok L)
    (hr : p.radius + p.blThickness < p.trFactor * p.radius) (hg : 0 < p.trGrowth) :
    p.trFactor * p.radius < L.wake := by
  replace hr : p.blRadius < p.trRadius := hr
  show p.trRadius < L.wake
  have ht : p.trLevels ≠ 0 := ((C75_accepted p).1 ⟨L, h⟩).2.2.2
  obtain ⟨-, -, -, -, f, hf, hw⟩ := layers_ok h
  rw [List.getLast?_eq_getElem?, trFaces_length, trFaces_get p _ (by omega)] at hf
  cases hf
  have := level_strict ht hr hg (i := p.trLevels - 1) (j := p.trLevels - 1 + 1) (by omega)
  rw [hw]
  simp only
  linarith

/-- **C75** Nothing checks that the regions are nested: a transition region larger than the
farfield, or smaller than the cylinder, is accepted. -/
theorem C75_fails_unchecked (p : CylParams) {L : CylLayers} (h : cylinderLayers p = .ok L) (k : ℝ) :
    ∃ L', cylinderLayers { p with trFactor := k } = .ok L' :=
  (C75_accepted _).2 ((C75_accepted p).1 ⟨L, h⟩)

/-- C75, concrete instance: the default parameters with a boundary layer. -/
def demoCyl : CylParams := { blThickness := 1 / 10 }

example : (∃ L, cylinderLayers demoCyl = .ok L) ∧ demoCyl.blRadius < demoCyl.trRadius ∧
    1 < demoCyl.trGrowth ∧ 2 ≤ demoCyl.trLevels := by
  refine ⟨(C75_accepted _).2 ?_, ?_, ?_, ?_⟩ <;>
    norm_num [demoCyl, CylParams.blRadius, CylParams.trRadius]

end Dream
