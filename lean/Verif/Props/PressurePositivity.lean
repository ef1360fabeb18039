import Verif.Props.PositivityMesh
import Verif.Lemmas.PointFlux
import Verif.Spec.PressurePositivity

/-!
# C110: pressure and temperature stay positive
-/

noncomputable section

namespace Dream
open Matrix

variable {n k : ℕ} {V B E Fc : Type} [Fintype V] [Fintype B] [DecidableEq E] [DecidableEq Fc]

/-! ### The cone of gas states -/

/-- Density and energy are not negative, and the energy is at least the kinetic one. -/
def WeakGas (w : Fin (n + 2) → ℝ) : Prop :=
  0 ≤ w 0 ∧ 0 ≤ w (Fin.last (n + 1)) ∧ mom w ⬝ᵥ mom w ≤ 2 * (w 0 * w (Fin.last (n + 1)))

/-- Density is positive, and the energy more than the kinetic one. -/
def StrictGas (w : Fin (n + 2) → ℝ) : Prop :=
  0 < w 0 ∧ mom w ⬝ᵥ mom w < 2 * (w 0 * w (Fin.last (n + 1)))

theorem strictGas_iff {w : Fin (n + 2) → ℝ} : StrictGas w ↔ GasVec w := by
  refine and_congr_right fun h0 => ?_
  rw [innerOf, sub_pos, div_lt_div_iff₀ (by positivity) h0]
  constructor
  · intro h
    nlinarith
  · intro h
    have : 0 < w 0 * (2 * (w 0 * w (Fin.last (n + 1))) - mom w ⬝ᵥ mom w) := by nlinarith
    linarith [(mul_pos_iff_of_pos_left h0).1 this]

theorem dot_self_nonneg (m : Fin n → ℝ) : 0 ≤ m ⬝ᵥ m :=
  Finset.sum_nonneg fun i _ => mul_self_nonneg (m i)

theorem StrictGas.weak {w : Fin (n + 2) → ℝ} (h : StrictGas w) : WeakGas w := by
  refine ⟨h.1.le, ?_, h.2.le⟩
  have : 0 < w 0 * w (Fin.last (n + 1)) := by linarith [dot_self_nonneg (mom w), h.2]
  exact ((mul_pos_iff_of_pos_left h.1).1 this).le

theorem mom_add (a b : Fin (n + 2) → ℝ) : mom (a + b) = mom a + mom b := rfl
theorem mom_smul (s : ℝ) (a : Fin (n + 2) → ℝ) : mom (s • a) = s • mom a := rfl

theorem dot_le_of_weak {a b : Fin (n + 2) → ℝ} (ha : WeakGas a) (hb : WeakGas b) :
    mom a ⬝ᵥ mom b ≤ a 0 * b (Fin.last (n + 1)) + b 0 * a (Fin.last (n + 1)) := by
  obtain ⟨a0, ae, am⟩ := ha
  obtain ⟨b0, be, bm⟩ := hb
  have cs : (mom a ⬝ᵥ mom b) ^ 2 ≤ (mom a ⬝ᵥ mom a) * (mom b ⬝ᵥ mom b) := by
    simp only [dotProduct]
    have := Finset.sum_mul_sq_le_sq_mul_sq Finset.univ (mom a) (mom b)
    simpa [pow_two] using this
  have h1 : (mom a ⬝ᵥ mom a) * (mom b ⬝ᵥ mom b)
      ≤ (2 * (a 0 * a (Fin.last (n + 1)))) * (2 * (b 0 * b (Fin.last (n + 1)))) :=
    mul_le_mul am bm (dot_self_nonneg _) (by positivity)
  refine abs_le_of_sq_le_sq' ?_ (by positivity) |>.2
  nlinarith [sq_nonneg (a 0 * b (Fin.last (n + 1)) - b 0 * a (Fin.last (n + 1)))]

theorem WeakGas.add {a b : Fin (n + 2) → ℝ} (ha : WeakGas a) (hb : WeakGas b) : WeakGas (a + b) := by
  refine ⟨add_nonneg ha.1 hb.1, add_nonneg ha.2.1 hb.2.1, ?_⟩
  have h := dot_le_of_weak ha hb
  have e : mom (a + b) ⬝ᵥ mom (a + b) = mom a ⬝ᵥ mom a + 2 * (mom a ⬝ᵥ mom b) + mom b ⬝ᵥ mom b := by
    rw [mom_add, add_dotProduct, dotProduct_add, dotProduct_add, dotProduct_comm (mom b) (mom a)]
    ring
  rw [e]
  simp only [Pi.add_apply]
  nlinarith [ha.2.2, hb.2.2]

theorem StrictGas.add {a b : Fin (n + 2) → ℝ} (ha : StrictGas a) (hb : WeakGas b) :
    StrictGas (a + b) := by
  refine ⟨add_pos_of_pos_of_nonneg ha.1 hb.1, ?_⟩
  have h := dot_le_of_weak ha.weak hb
  have e : mom (a + b) ⬝ᵥ mom (a + b) = mom a ⬝ᵥ mom a + 2 * (mom a ⬝ᵥ mom b) + mom b ⬝ᵥ mom b := by
    rw [mom_add, add_dotProduct, dotProduct_add, dotProduct_add, dotProduct_comm (mom b) (mom a)]
    ring
  rw [e]
  simp only [Pi.add_apply]
  nlinarith [ha.2, hb.2.2]

theorem WeakGas.smul {a : Fin (n + 2) → ℝ} (ha : WeakGas a) {s : ℝ} (hs : 0 ≤ s) :
    WeakGas (s • a) := by
  refine ⟨mul_nonneg hs ha.1, mul_nonneg hs ha.2.1, ?_⟩
  rw [mom_smul, smul_dotProduct, dotProduct_smul]
  simp only [Pi.smul_apply, smul_eq_mul]
  nlinarith [mul_nonneg (mul_nonneg hs hs) (sub_nonneg.2 ha.2.2)]

theorem StrictGas.smul {a : Fin (n + 2) → ℝ} (ha : StrictGas a) {s : ℝ} (hs : 0 < s) :
    StrictGas (s • a) := by
  refine ⟨mul_pos hs ha.1, ?_⟩
  rw [mom_smul, smul_dotProduct, dotProduct_smul]
  simp only [Pi.smul_apply, smul_eq_mul]
  nlinarith [mul_pos (mul_pos hs hs) (sub_pos.2 ha.2)]

theorem weakGas_zero : WeakGas (0 : Fin (n + 2) → ℝ) := by
  refine ⟨le_refl _, le_refl _, ?_⟩
  simp [show mom (0 : Fin (n + 2) → ℝ) = 0 from rfl]

theorem weakGas_sum {ι : Type} (s : Finset ι) (f : ι → Fin (n + 2) → ℝ) (h : ∀ i ∈ s, WeakGas (f i)) :
    WeakGas (∑ i ∈ s, f i) := by
  classical
  induction s using Finset.induction_on with
  | empty => simpa using weakGas_zero
  | insert i s hi ih =>
    rw [Finset.sum_insert hi]
    exact (h i (by simp)).add (ih fun j hj => h j (by simp [hj]))

theorem strictGas_sum {ι : Type} [Fintype ι] (f : ι → Fin (n + 2) → ℝ) (h : ∀ i, WeakGas (f i))
    (i : ι) (hi : StrictGas (f i)) : StrictGas (∑ j, f j) := by
  classical
  rw [← Finset.add_sum_erase _ _ (Finset.mem_univ i)]
  exact hi.add (weakGas_sum _ _ fun j _ => h j)

/-! ### The flux -/

/-- The pressure that belongs to conservative variables. -/
def gasPressure (γ : ℝ) (w : Fin (n + 2) → ℝ) : ℝ :=
  (γ - 1) * (w (Fin.last (n + 1)) - (mom w ⬝ᵥ mom w) / (2 * w 0))

/-- What the code derives from conservative variables of any sign. -/
theorem conservative_all {γ : ℝ} {w : Fin (n + 2) → ℝ} (h0 : w 0 ≠ 0) {U : Flow n}
    (hU : conservativeFields γ w = .ok U) :
    U.rho = some (w 0) ∧ U.rho_u = some (mom w) ∧ U.rho_E = some (w (Fin.last (n + 1))) ∧
      U.u = some ((w 0)⁻¹ • mom w) ∧ U.p = some (gasPressure γ w) ∧ U.rho_H = none ∧
      U.c = some √(γ * gasPressure γ w / w 0) := by
  have hk : (γ - 1) * (w (Fin.last (n + 1)) - 2⁻¹ * w 0 * ((w 0)⁻¹ * ((w 0)⁻¹ *
      ((fun i : Fin n => w i.castSucc.succ) ⬝ᵥ fun i => w i.castSucc.succ)))) = gasPressure γ w := by
    show _ = (γ - 1) * (w (Fin.last (n + 1))
      - ((fun i : Fin n => w i.castSucc.succ) ⬝ᵥ fun i => w i.castSucc.succ) / (2 * w 0))
    field_simp
  simp [conservativeFields, getConservativeFields, velocity, kineticEnergy, innerEnergy, pressure,
    temperature, speedOfSound, equation, equationE, bind, Except.bind, EOS.pressure,
    EOS.temperature, EOS.speedOfSound, EOS.innerEnergy] at hU
  rw [hk] at hU
  rw [← hU]
  exact ⟨rfl, rfl, rfl, rfl, rfl, rfl, rfl⟩

theorem rows_mom (a : Fin n → ℝ) (A : Matrix (Fin n) (Fin n) ℝ) (c d : Fin n → ℝ) (i : Fin n) :
    ((Matrix.of (Fin.cons a (Fin.snoc (fun i => A i) c)) : Matrix (Fin (n + 2)) (Fin n) ℝ) *ᵥ d)
      i.castSucc.succ = (A *ᵥ d) i := by
  simp [mulVec, Matrix.of_apply]

theorem rows_last (a : Fin n → ℝ) (A : Matrix (Fin n) (Fin n) ℝ) (c d : Fin n → ℝ) :
    ((Matrix.of (Fin.cons a (Fin.snoc (fun i => A i) c)) : Matrix (Fin (n + 2)) (Fin n) ℝ) *ᵥ d)
      (Fin.last (n + 1)) = c ⬝ᵥ d := by
  rw [← Fin.succ_last]
  simp [mulVec, Matrix.of_apply]

/-- The numerical flux with Lax–Friedrichs or HLL, whatever the facet values are: the flux of the
facet values and a multiple of the jump, by at least the largest signal speed. -/
theorem numerical_eq {γ : ℝ} {rs : Riemann} (hrs : rs.AnyDim) (w wHat : Fin (n + 2) → ℝ)
    (h0 : wHat 0 ≠ 0) {UHat : Flow n} (hU : conservativeFields γ wHat = .ok UHat) (d : Fin n → ℝ)
    {f : Fin (n + 2) → ℝ} (hf : convectiveNumericalFlux γ rs w wHat UHat d = .ok f) :
    ∃ l : ℝ, 0 ≤ l ∧ normalOf d wHat + √(γ * gasPressure γ wHat / wHat 0) ≤ l ∧
      f = _root_.Spec.eulerFluxOf γ d wHat + l • (w - wHat) := by
  obtain ⟨hr, hm, he, hu, hp, hH, hc⟩ := conservative_all h0 hU
  obtain ⟨t1, t2⟩ := C28_lax_friedrich_hll (U := UHat) (u := (wHat 0)⁻¹ • mom wHat)
    (c := √(γ * gasPressure γ wHat / wHat 0)) (γ := γ) d (by simp [velocity, hu, equation, equationE])
    (by simp [speedOfSound, EOS.speedOfSound, hc, equation, equationE])
  have hn : ((wHat 0)⁻¹ • mom wHat) ⬝ᵥ d = normalOf d wHat := by
    rw [smul_dotProduct, smul_eq_mul, normalOf]; ring
  rw [hn] at t1 t2
  have hflux : ∀ F, convectiveFlux γ UHat = .ok F → F *ᵥ d = _root_.Spec.eulerFluxOf γ d wHat := by
    intro F hF
    simp only [convectiveFlux, density, EOS.density, momentum, enthalpy, velocity, pressure,
      EOS.pressure, equation, equationE, hr, hm, he, hu, hp, hH, bind, Except.bind] at hF
    rw [← Except.ok.inj hF]
    refine cons_ext ?_ (fun i => ?_) ?_
    · rfl
    · refine (rows_mom _ _ _ d i).trans ?_
      simp only [_root_.Spec.eulerFluxOf, eulerFlux_eq, consVec_mom]
      rw [add_mulVec, smul_mulVec, smul_mulVec, one_mulVec, vecMulVec_mulVec]
      show (1 / wHat 0) * (mom wHat i * (mom wHat ⬝ᵥ d)) + gasPressure γ wHat * d i
        = mom wHat i * (mom wHat ⬝ᵥ d) / wHat 0 + gasPressure γ wHat * d i
      ring
    · refine (rows_last _ _ _ d).trans ?_
      simp only [_root_.Spec.eulerFluxOf, eulerFlux_eq, consVec_last]
      rw [smul_dotProduct, smul_dotProduct, smul_eq_mul, smul_eq_mul]
      show (wHat (Fin.last (n + 1)) + gasPressure γ wHat) * ((wHat 0)⁻¹ * (mom wHat ⬝ᵥ d))
        = (wHat (Fin.last (n + 1)) + gasPressure γ wHat) * (mom wHat ⬝ᵥ d) / wHat 0
      ring
  have key : ∀ l : ℝ, 0 ≤ l → normalOf d wHat + √(γ * gasPressure γ wHat / wHat 0) ≤ l →
      rs.tau γ UHat d = .ok (l • 1) → ∃ l : ℝ, 0 ≤ l ∧
      normalOf d wHat + √(γ * gasPressure γ wHat / wHat 0) ≤ l ∧
      f = _root_.Spec.eulerFluxOf γ d wHat + l • (w - wHat) := by
    intro l hl hle ht
    unfold convectiveNumericalFlux at hf
    rw [ht] at hf
    obtain ⟨_, h1, hf⟩ := of_bind_ok hf
    obtain ⟨F, hF, hf⟩ := of_bind_ok hf
    rw [← Except.ok.inj h1] at hf
    refine ⟨l, hl, hle, ?_⟩
    rw [← Except.ok.inj hf, hflux F hF, smul_mulVec, one_mulVec]
  rcases hrs with rfl | rfl
  · exact key _ (by positivity) (by linarith [le_abs_self (normalOf d wHat)]) t1
  · exact key _ (le_max_right _ _) (le_max_left _ _) t2

/-- What a facet passes on to the element is again in the cone. -/
theorem incoming_weak {γ : ℝ} (hγ : 1 < γ) {w : Fin (n + 2) → ℝ} (h0 : 0 < w 0)
    (hp : 0 ≤ gasPressure γ w) {d : Fin n → ℝ} (hd : d ⬝ᵥ d = 1) {l : ℝ}
    (hl : normalOf d w + √(γ * gasPressure γ w / w 0) ≤ l) :
    WeakGas (l • w - _root_.Spec.eulerFluxOf γ d w) := by
  obtain ⟨p, hpe⟩ : ∃ p, p = gasPressure γ w := ⟨_, rfl⟩
  rw [← hpe] at hp hl
  obtain ⟨b, hb⟩ : ∃ b, b = l - normalOf d w := ⟨_, rfl⟩
  have hsq : γ * p / w 0 ≤ b ^ 2 := by
    have h1 : √(γ * p / w 0) ≤ b := by linarith
    have h2 := Real.sq_sqrt (show 0 ≤ γ * p / w 0 by positivity)
    nlinarith [Real.sqrt_nonneg (γ * p / w 0)]
  have hb0 : 0 ≤ b := by
    have := Real.sqrt_nonneg (γ * p / w 0)
    linarith
  have hsq' : γ * p ≤ w 0 * b ^ 2 := by
    rw [div_le_iff₀ h0] at hsq
    linarith
  have hm : mom w ⬝ᵥ d = w 0 * normalOf d w := by rw [normalOf]; field_simp
  have e0 : (l • w - _root_.Spec.eulerFluxOf γ d w) 0 = w 0 * b := by
    show l * w 0 - mom w ⬝ᵥ d = _
    rw [hm, hb]; ring
  have em : mom (l • w - _root_.Spec.eulerFluxOf γ d w) = b • mom w - p • d := by
    funext i
    have : mom (l • w - _root_.Spec.eulerFluxOf γ d w) i
        = l * mom w i - (mom w i * (mom w ⬝ᵥ d) / w 0 + gasPressure γ w * d i) := by
      show l * w i.castSucc.succ - _root_.Spec.eulerFluxOf γ d w i.castSucc.succ = _
      simp only [_root_.Spec.eulerFluxOf, eulerFlux_eq, consVec_mom]
      rfl
    rw [this, hm, ← hpe, hb]
    simp only [Pi.sub_apply, Pi.smul_apply, smul_eq_mul]
    field_simp
    ring
  have ee : (l • w - _root_.Spec.eulerFluxOf γ d w) (Fin.last (n + 1))
      = b * w (Fin.last (n + 1)) - p * normalOf d w := by
    have : (l • w - _root_.Spec.eulerFluxOf γ d w) (Fin.last (n + 1)) = l * w (Fin.last (n + 1))
        - (w (Fin.last (n + 1)) + gasPressure γ w) * (mom w ⬝ᵥ d) / w 0 := by
      show l * w (Fin.last (n + 1)) - _root_.Spec.eulerFluxOf γ d w (Fin.last (n + 1)) = _
      simp only [_root_.Spec.eulerFluxOf, eulerFlux_eq, consVec_last]
      rfl
    rw [this, hm, ← hpe, hb]
    field_simp
    ring
  have hk : mom w ⬝ᵥ mom w = 2 * w 0 * (w (Fin.last (n + 1)) - p / (γ - 1)) := by
    have : γ - 1 ≠ 0 := by linarith
    rw [hpe, gasPressure]
    field_simp
    ring
  have hq : mom (l • w - _root_.Spec.eulerFluxOf γ d w) ⬝ᵥ mom (l • w - _root_.Spec.eulerFluxOf γ d w)
      = b ^ 2 * (mom w ⬝ᵥ mom w) - 2 * b * p * (w 0 * normalOf d w) + p ^ 2 := by
    rw [em, sub_dotProduct, dotProduct_sub, dotProduct_sub]
    simp only [smul_dotProduct, dotProduct_smul, smul_eq_mul, hd, dotProduct_comm d (mom w), hm]
    ring
  have hle : b ^ 2 * (mom w ⬝ᵥ mom w) - 2 * b * p * (w 0 * normalOf d w) + p ^ 2
      ≤ 2 * (w 0 * b * (b * w (Fin.last (n + 1)) - p * normalOf d w)) := by
    have h1 : p ^ 2 ≤ 2 * (w 0 * b ^ 2) * (p / (γ - 1)) := by
      have h2 : p ≤ 2 * (w 0 * b ^ 2) / (γ - 1) := by
        rw [le_div_iff₀ (by linarith)]
        nlinarith
      calc p ^ 2 = p * p := by ring
        _ ≤ 2 * (w 0 * b ^ 2) / (γ - 1) * p := mul_le_mul_of_nonneg_right h2 hp
        _ = _ := by ring
    rw [hk]
    nlinarith
  refine ⟨by rw [e0]; positivity, ?_, by rw [hq, e0, ee]; exact hle⟩
  rw [ee]
  rcases hb0.eq_or_lt with hz | hpos
  · have : p = 0 := by
      rw [← hz] at hsq'
      nlinarith
    rw [← hz, this]; simp
  · have h1 : 0 ≤ w 0 * b * (b * w (Fin.last (n + 1)) - p * normalOf d w) := by
      have := dot_self_nonneg (mom (l • w - _root_.Spec.eulerFluxOf γ d w))
      rw [hq] at this
      linarith
    exact (mul_nonneg_iff_of_pos_left (by positivity)).1 h1

/-! ### Steps and runs -/

theorem isGasState_iff {γ : ℝ} (hγ : 1 < γ) {w : Fin (n + 2) → ℝ} : IsGasState γ w ↔ StrictGas w := by
  rw [strictGas_iff]
  constructor
  · rintro ⟨S, hS, rfl⟩
    exact gasVec_of hS
  · intro h
    exact ⟨gasOf γ w, gasOf_ideal hγ h, (gasOf_vec h).symm⟩

/-- Tested with one on an element, a step says that what is in it changes by what comes in. -/
theorem element_balance {M : HdgMesh n V B} {mask : B → ℝ} {K : Cells V B E Fc}
    {T : Set (HdgTest n k V B)} (hT : K.HasIndicators T) {dt : ℝ} {t : ℚ}
    {x cur prev : HdgState n k V B} (hG : ∀ b, x.Gn b = 0)
    (h : hdgStep M mask T (Scheme.implicitEuler.quotient dt) t x cur prev) (e : E) (i : Fin k) :
    (∑ v, if K.el v = e then M.wV v * ((x.U v i - cur.U v i) / dt + x.source v i) else 0)
      + (∑ b, if K.elB b = e then M.wB b * x.Fn b i else 0) = 0 := by
  have := h _ (hT.1 e i)
  simp only [timeForm, convectionForm, diffusionForm, boundaryForm, Cells.elementTest, frobenius,
    Scheme.quotient, _root_.Spec.backwardEuler] at this
  simp only [hG, zero_dotProduct, Matrix.zero_apply, mul_zero, Finset.sum_const_zero, neg_zero,
    dotProduct_zero, add_zero, zero_add, sub_zero] at this
  rw [add_right_comm, ← Finset.sum_add_distrib] at this
  refine Eq.trans ?_ this
  congr 1
  · refine Finset.sum_congr rfl fun v _ => ?_
    split_ifs <;> simp
    ring
  · refine Finset.sum_congr rfl fun b _ => ?_
    split_ifs <;> simp

/-- Tested with one on a facet inside, a step says that the fluxes of both sides cancel. -/
theorem facet_balance {M : HdgMesh n V B} {mask : B → ℝ} {K : Cells V B E Fc}
    {T : Set (HdgTest n k V B)} (hT : K.HasIndicators T) {q : ℝ → ℝ → ℝ → ℝ} {t : ℚ}
    {x cur prev : HdgState n k V B} (hG : ∀ b, x.Gn b = 0) (hR : ∀ b, mask b = 1 → x.R b = 0)
    (h : hdgStep M mask T q t x cur prev) (f : Fc)
    (hf : ∀ b, K.facet b = f → mask b = 1) (i : Fin k) :
    (∑ b, if K.facet b = f then M.wB b * x.Fn b i else 0) = 0 := by
  have := h _ (hT.2 f i)
  simp only [timeForm, convectionForm, diffusionForm, boundaryForm, Cells.facetTest, frobenius] at this
  have hR : ∀ b, (x.R b ⬝ᵥ if K.facet b = f then (Pi.single i 1 : Fin k → ℝ) else 0) = 0 := by
    intro b
    split_ifs with hb
    · simp [hR b (hf b hb)]
    · simp
  simp only [hG, hR, zero_dotProduct, Matrix.zero_apply, mul_zero, Finset.sum_const_zero, neg_zero,
    dotProduct_zero, add_zero, zero_add, sub_zero] at this
  rw [← neg_eq_zero, ← Finset.sum_neg_distrib]
  refine Eq.trans ?_ this
  refine Finset.sum_congr rfl fun b _ => ?_
  split_ifs with hb
  · simp [hf b hb]
  · simp

/-- Where a condition acts the facet density is positive if the one in the element is. -/
theorem boundary_density {γ : ℝ} {rs : Riemann} {M : HdgMesh n V B}
    {mask : B → ℝ} {K : Cells V B E Fc} (hK : K.Fits M mask) {T : Set (HdgTest n (n + 2) V B)}
    (hT : K.HasIndicators T) {q : ℝ → ℝ → ℝ → ℝ} {t : ℚ} {x cur prev : HdgState n (n + 2) V B}
    {tr hat : B → Fin (n + 2) → ℝ} {kind : Fc → BoundaryKind}
    (hx : LowestOrder γ rs M mask K x tr hat kind) (h : hdgStep M mask T q t x cur prev) (b : B)
    (hb : mask b = 0) (htr0 : 0 < tr b 0) : 0 < hat b 0 := by
  have hm0 : ∀ b', K.facet b' = K.facet b → mask b' = 0 := fun b' h' => by
    rw [hK.maskFacet b' b h', hb]
  have htr : ∀ b', K.facet b' = K.facet b → tr b' = tr b := by
    intro b' h'
    obtain ⟨v, hv⟩ := hK.points b
    rw [hx.constant.trace v b hv, hx.constant.trace v b' (hv.trans (hK.outer b b' hb h').1.symm)]
  have hhat : ∀ b', K.facet b' = K.facet b → hat b' = hat b := fun b' h' =>
    hx.constant.facets b' b h'
  have hcond : ∀ b', K.facet b' = K.facet b → (kind (K.facet b)).Holds γ (M.normal b) (tr b)
      (hat b) (x.R b') := by
    intro b' h'
    have := hx.conditions b' (hm0 b' h')
    rwa [h', htr b' h', hhat b' h', (hK.outer b b' hb h').2] at this
  have closed : (∀ b', K.facet b' = K.facet b → x.R b' 0 = hat b 0 - tr b 0) → 0 < hat b 0 := by
    intro hc
    have := facet_residual hK hT h b hb 0 fun b' h' => by rw [hc b' h', hc b rfl]
    rw [hc b rfl] at this
    linarith
  cases hk : kind (K.facet b) with
  | wall =>
    rw [hk] at hcond
    exact closed fun b' h' => by
      obtain ⟨U, hU, hR⟩ := hcond b' h'
      exact (inviscid_wall_parts hU hR).1
  | isothermal =>
    rw [hk] at hcond
    exact closed fun b' h' => by
      obtain ⟨bc, U, hU, hR⟩ := hcond b' h'
      exact (isothermal_wall_parts hU hR).1
  | outflow =>
    rw [hk] at hcond
    exact closed fun b' h' => by
      obtain ⟨⟨bc, U, hU, hR⟩, -⟩ := hcond b' h'
      exact outflow_parts hU hR
  | dense =>
    rw [hk] at hcond
    exact hcond b rfl

/-- The fluxes of a step are those of the element values, less something in the cone. -/
theorem fluxes_split {γ : ℝ} (hγ : 1 < γ) {rs : Riemann} (hrs : rs.AnyDim) {M : HdgMesh n V B}
    {mask : B → ℝ} {K : Cells V B E Fc} (hK : K.Fits M mask) {T : Set (HdgTest n (n + 2) V B)}
    (hT : K.HasIndicators T) {q : ℝ → ℝ → ℝ → ℝ} {t : ℚ} {x cur prev : HdgState n (n + 2) V B}
    {tr hat : B → Fin (n + 2) → ℝ} {kind : Fc → BoundaryKind}
    (hx : LowestOrder γ rs M mask K x tr hat kind) (hG : ∀ b, x.Gn b = 0)
    (h : hdgStep M mask T q t x cur prev) (hpos : ∀ v, 0 < x.U v 0)
    (hs : ∀ b, 0 ≤ gasPressure γ (hat b) / hat b 0) (b : B) :
    ∃ (l : ℝ) (H : Fin (n + 2) → ℝ), 0 ≤ l ∧ WeakGas H ∧ x.Fn b = l • tr b - H := by
  have hl : ∀ b, ∃ l : ℝ, 0 ≤ l ∧ normalOf (M.normal b) (hat b)
      + √(γ * gasPressure γ (hat b) / hat b 0) ≤ l ∧
      x.Fn b = _root_.Spec.eulerFluxOf γ (M.normal b) (hat b) + l • (tr b - hat b) := by
    intro b
    obtain ⟨UHat, hU, hf⟩ := hx.flux b
    exact numerical_eq hrs (tr b) (hat b) (hx.defined b) hU _ hf
  have htr : ∀ b, 0 < tr b 0 := by
    intro b
    obtain ⟨v, hv⟩ := hK.points b
    rw [hx.constant.trace v b hv]
    exact hpos v
  obtain ⟨l, l0, hle, e⟩ := hl b
  refine ⟨l, l • hat b - _root_.Spec.eulerFluxOf γ (M.normal b) (hat b), l0, ?_, by
    rw [e, smul_sub]; abel⟩
  rcases lt_or_gt_of_ne (hx.defined b) with hneg | hp
  · -- a negative facet density: nothing passes
    have hm1 : mask b = 1 := by
      rcases hK.mask01 b with hm | hm
      · exact absurd (boundary_density hK hT hx h b hm (htr b)) (by linarith)
      · exact hm
    have hbal := facet_balance hT hG hx.inside h (K.facet b)
      (fun b' h' => by rw [hK.maskFacet b' b h', hm1]) 0
    have hflow : ∀ b', K.facet b' = K.facet b → 0 ≤ x.Fn b' 0 := by
      intro b' h'
      obtain ⟨l', l0', hle', e'⟩ := hl b'
      have hh := hx.constant.facets b' b h'
      have e2 : x.Fn b' 0 = l' * tr b' 0 + (l' - normalOf (M.normal b') (hat b')) * (-hat b' 0) := by
        rw [e']
        show mom (hat b') ⬝ᵥ M.normal b' + l' * (tr b' 0 - hat b' 0) = _
        rw [normalOf]
        field_simp [hx.defined b']
        ring
      rw [e2]
      have h1 := Real.sqrt_nonneg (γ * gasPressure γ (hat b') / hat b' 0)
      have h2 : 0 ≤ -hat b' 0 := by rw [hh]; linarith
      exact add_nonneg (mul_nonneg l0' (htr b').le) (mul_nonneg (by linarith) h2)
    have hz : M.wB b * x.Fn b 0 = 0 := by
      have := (Finset.sum_eq_zero_iff_of_nonneg (fun b' _ => ?_)).1 hbal b (Finset.mem_univ _)
      · simpa using this
      · split_ifs with h'
        · exact mul_nonneg (hK.boundary b').le (hflow b' h')
        · exact le_refl _
    have hz' : x.Fn b 0 = 0 := (mul_eq_zero.1 hz).resolve_left (hK.boundary b).ne'
    have e2 : x.Fn b 0 = l * tr b 0 + (l - normalOf (M.normal b) (hat b)) * (-hat b 0) := by
      rw [e]
      show mom (hat b) ⬝ᵥ M.normal b + l * (tr b 0 - hat b 0) = _
      rw [normalOf]
      field_simp [hx.defined b]
      ring
    have h1 := Real.sqrt_nonneg (γ * gasPressure γ (hat b) / hat b 0)
    have hn0 : 0 ≤ (l - normalOf (M.normal b) (hat b)) * (-hat b 0) :=
      mul_nonneg (by linarith) (by linarith)
    have hl0 : l = 0 := by
      have : l * tr b 0 = 0 := le_antisymm (by linarith) (mul_nonneg l0 (htr b).le)
      exact (mul_eq_zero.1 this).resolve_right (htr b).ne'
    have hun : normalOf (M.normal b) (hat b) = 0 := by
      have : (l - normalOf (M.normal b) (hat b)) * (-hat b 0) = 0 := by
        rw [hl0, zero_mul] at e2
        rw [hl0]
        linarith
      have := (mul_eq_zero.1 this).resolve_right (by linarith)
      linarith
    have hp0 : gasPressure γ (hat b) = 0 := by
      have h2 : √(γ * gasPressure γ (hat b) / hat b 0) = 0 := by linarith
      have h3 : 0 ≤ γ * gasPressure γ (hat b) / hat b 0 := by
        rw [mul_div_assoc]; exact mul_nonneg (by linarith) (hs b)
      rw [Real.sqrt_eq_zero h3, mul_div_assoc] at h2
      have := (mul_eq_zero.1 h2).resolve_left (by linarith)
      exact (div_eq_zero_iff.1 this).resolve_right (hx.defined b)
    have hmd : mom (hat b) ⬝ᵥ M.normal b = 0 := by
      rw [normalOf] at hun
      exact (div_eq_zero_iff.1 hun).resolve_right (hx.defined b)
    have hfl : _root_.Spec.eulerFluxOf γ (M.normal b) (hat b) = 0 := by
      refine cons_ext hmd (fun i => ?_) ?_
      · simp only [_root_.Spec.eulerFluxOf, eulerFlux_eq, consVec_mom]
        show mom (hat b) i * (mom (hat b) ⬝ᵥ M.normal b) / hat b 0
          + gasPressure γ (hat b) * M.normal b i = 0
        rw [hmd, hp0]; simp
      · simp only [_root_.Spec.eulerFluxOf, eulerFlux_eq, consVec_last]
        show (hat b (Fin.last (n + 1)) + gasPressure γ (hat b)) * (mom (hat b) ⬝ᵥ M.normal b) / hat b 0
          = 0
        rw [hmd]; simp
    rw [hl0, hfl, zero_smul, sub_zero]
    exact weakGas_zero
  · exact incoming_weak hγ hp (by
      have := hs b
      rwa [le_div_iff₀ hp, zero_mul] at this) (hK.unit b) hle

/-- What is assumed besides `LowestOrder`: there is no viscosity, the square root in the speed of sound
of the facet values is that of a number that is not negative (the code would get `nan` otherwise), and
sponge layers relax to a gas. -/
structure LowestOrder.Sound (γ : ℝ) (x : HdgState n (n + 2) V B) (hat : B → Fin (n + 2) → ℝ) : Prop where
  inviscid : ∀ b, x.Gn b = 0
  facets : ∀ b, ∃ UHat p ρ, conservativeFields γ (hat b) = .ok UHat ∧ pressure γ UHat = .ok p ∧
    density γ UHat = .ok ρ ∧ 0 ≤ γ * p / ρ
  sponge : ∀ v, x.source v = 0 ∨ ∃ σ target w, 0 ≤ σ ∧ stateVec γ target = .ok w ∧ IsGasState γ w ∧
    spongeResidual γ σ target (x.U v) = .ok (x.source v)

/-- **C110** One step of the implicit Euler method with piecewise constants, Lax–Friedrichs or HLL, in
any dimension, with sponge layers and any conditions on the boundary: if there is gas in every element
before the step there is gas in every element after it (density, pressure, temperature and speed of
sound are positive), however long the step is. -/
theorem C110_step [Fintype E] [Fintype Fc] {γ : ℝ} (hγ : 1 < γ) {rs : Riemann} (hrs : rs.AnyDim)
    (M : HdgMesh n V B) (mask : B → ℝ) (K : Cells V B E Fc) (hK : K.Fits M mask)
    (T : Set (HdgTest n (n + 2) V B)) (hT : K.HasIndicators T) (dt : ℝ) (hdt : 0 < dt) (t : ℚ)
    (x cur prev : HdgState n (n + 2) V B) (tr hat : B → Fin (n + 2) → ℝ) (kind : Fc → BoundaryKind)
    (hx : LowestOrder γ rs M mask K x tr hat kind) (hs : LowestOrder.Sound γ x hat)
    (h : hdgStep M mask T (Scheme.implicitEuler.quotient dt) t x cur prev)
    (hcur : ∀ v, IsGasState γ (cur.U v)) : ∀ v, IsGasState γ (x.U v) := by
  have hcur' : ∀ v, StrictGas (cur.U v) := fun v => (isGasState_iff hγ).1 (hcur v)
  have hpos := C89_step hrs M mask K hK T hT dt hdt t x cur prev tr hat kind hx h
    fun v => (hcur' v).1
  have hsound : ∀ b, 0 ≤ gasPressure γ (hat b) / hat b 0 := by
    intro b
    obtain ⟨UHat, p, ρ, hU, hp, hr, h0⟩ := hs.facets b
    obtain ⟨e1, -, -, -, e2, -⟩ := conservative_all (hx.defined b) hU
    have e3 : gasPressure γ (hat b) = p := by
      simpa [pressure, EOS.pressure, e2, equation, equationE] using hp
    have e4 : hat b 0 = ρ := by simpa [density, EOS.density, e1, equation, equationE] using hr
    rw [e3, e4]
    rw [mul_div_assoc] at h0
    exact (mul_nonneg_iff_of_pos_left (by linarith)).1 h0
  have hsp : ∀ v, ∃ (σ : ℝ) (w : Fin (n + 2) → ℝ), 0 ≤ σ ∧ WeakGas w ∧ x.source v = σ • (x.U v - w) := by
    intro v
    rcases hs.sponge v with e | ⟨σ, target, w, hσ, hw, hg, e⟩
    · exact ⟨0, 0, le_refl _, weakGas_zero, by rw [e, zero_smul]⟩
    · refine ⟨σ, w, hσ, ((isGasState_iff hγ).1 hg).weak, ?_⟩
      unfold spongeResidual at e
      rw [hw] at e
      exact (Except.ok.inj e).symm
  choose σ tg hσ htg hsrc using hsp
  choose l H hl hH hF using fluxes_split hγ hrs hK hT hx hs.inviscid h hpos hsound
  intro v0
  rw [isGasState_iff hγ]
  -- the balance of the element as one equation of vectors
  obtain ⟨A, hA⟩ : ∃ A : ℝ, A = (∑ v, if K.el v = K.el v0 then M.wV v * (dt⁻¹ + σ v) else 0)
      + ∑ b, if K.elB b = K.el v0 then M.wB b * l b else 0 := ⟨_, rfl⟩
  obtain ⟨R, hR⟩ : ∃ R : Fin (n + 2) → ℝ, R = (∑ v, if K.el v = K.el v0 then
        (M.wV v * dt⁻¹) • cur.U v + (M.wV v * σ v) • tg v else 0)
      + ∑ b, if K.elB b = K.el v0 then M.wB b • H b else 0 := ⟨_, rfl⟩
  have hAR : A • x.U v0 = R := by
    funext i
    have hb := element_balance hT hs.inviscid h (K.el v0) i
    rw [hA, hR]
    simp only [Pi.smul_apply, Pi.add_apply, Finset.sum_apply, smul_eq_mul, add_mul, Finset.sum_mul]
    rw [← sub_eq_zero, add_sub_add_comm, ← Finset.sum_sub_distrib, ← Finset.sum_sub_distrib]
    refine Eq.trans ?_ hb
    congr 1
    · refine Finset.sum_congr rfl fun v _ => ?_
      split_ifs with hv
      · rw [hsrc v, hx.constant.volume v v0 hv]
        simp only [Pi.smul_apply, Pi.add_apply, Pi.sub_apply, smul_eq_mul]
        ring
      · simp
    · refine Finset.sum_congr rfl fun b _ => ?_
      split_ifs with hv
      · rw [hF b, hx.constant.trace v0 b hv.symm]
        simp only [Pi.smul_apply, Pi.sub_apply, smul_eq_mul]
        ring
      · simp
  have hRs : StrictGas R := by
    rw [hR]
    refine StrictGas.add (strictGas_sum _ (fun v => ?_) v0 ?_) (weakGas_sum _ _ fun b _ => ?_)
    · split_ifs
      · have := hK.volume v
        exact ((hcur' v).weak.smul (by positivity)).add ((htg v).smul (mul_nonneg this.le (hσ v)))
      · exact weakGas_zero
    · have := hK.volume v0
      rw [if_pos rfl]
      exact ((hcur' v0).smul (by positivity)).add ((htg v0).smul (mul_nonneg this.le (hσ v0)))
    · split_ifs
      · exact (hH b).smul (hK.boundary b).le
      · exact weakGas_zero
  have hA0 : 0 < A := by
    have h1 := hRs.1
    rw [← hAR] at h1
    exact (mul_pos_iff_of_pos_right (hpos v0)).1 h1
  have : x.U v0 = A⁻¹ • R := by rw [← hAR, smul_smul, inv_mul_cancel₀ hA0.ne', one_smul]
  rw [this]
  exact hRs.smul (inv_pos.2 hA0)

/-- **C110** A whole run: there is gas in every element after every step. -/
theorem C110_run [Fintype E] [Fintype Fc] {γ : ℝ} (hγ : 1 < γ) {rs : Riemann} (hrs : rs.AnyDim)
    (M : HdgMesh n V B) (mask : B → ℝ) (K : Cells V B E Fc) (hK : K.Fits M mask)
    (T : Set (HdgTest n (n + 2) V B)) (hT : K.HasIndicators T) (dt : ℝ) (hdt : 0 < dt)
    (ts : List ℚ) (x0 : HdgState n (n + 2) V B) (xs : List (HdgState n (n + 2) V B))
    (hx : ∀ x ∈ xs, ∃ tr hat kind, LowestOrder γ rs M mask K x tr hat kind ∧
      LowestOrder.Sound γ x hat)
    (h : _root_.Spec.Satisfies (hdgStep M mask T (Scheme.implicitEuler.quotient dt)) x0 x0 ts xs)
    (h0 : ∀ v, IsGasState γ (x0.U v)) : ∀ x ∈ xs, ∀ v, IsGasState γ (x.U v) := by
  suffices key : ∀ p x0 : HdgState n (n + 2) V B, (∀ v, IsGasState γ (x0.U v)) →
      _root_.Spec.Satisfies (hdgStep M mask T (Scheme.implicitEuler.quotient dt)) p x0 ts xs →
      ∀ x ∈ xs, ∀ v, IsGasState γ (x.U v) from key x0 x0 h0 h
  clear h h0 x0
  induction ts generalizing xs with
  | nil => intro p x0 _ h; cases xs <;> simp_all [_root_.Spec.Satisfies]
  | cons t ts ih =>
    intro p x0 h0 h
    cases xs with
    | nil => simp
    | cons y ys =>
      obtain ⟨h1, h2⟩ := h
      obtain ⟨tr, hat, kind, hy, hs⟩ := hx y (by simp)
      have hp := C110_step hγ hrs M mask K hK T hT dt hdt t y x0 p tr hat kind hy hs h1 h0
      intro x hxm
      rcases List.mem_cons.1 hxm with rfl | hm
      · exact hp
      · exact ih ys (fun z hz => hx z (List.mem_cons_of_mem _ hz)) x0 y hp h2 x hm

/-- **C110** The quantities a user asks for: `get_fields` of such a state returns a positive density,
pressure, temperature and speed of sound. -/
theorem C110_fields {γ : ℝ} {w : Fin (n + 2) → ℝ} (h : IsGasState γ w) :
    ∃ U ρ p T c, conservativeFields γ w = .ok U ∧ density γ U = .ok ρ ∧ pressure γ U = .ok p ∧
      temperature γ U = .ok T ∧ speedOfSound γ U = .ok c ∧ 0 < ρ ∧ 0 < p ∧ 0 < T ∧ 0 < c := by
  obtain ⟨S, hS, rfl⟩ := h
  refine ⟨_, S.rho, S.p, S.T, S.c, conservativeFields_gas hS, ?_, ?_, ?_, ?_, hS.rho_pos, hS.p_pos,
    hS.T_pos, hS.sound_pos⟩ <;>
  simp [conservativeDict, density, EOS.density, pressure, EOS.pressure, temperature, EOS.temperature,
    speedOfSound, EOS.speedOfSound, equation, equationE]

/-- **C110** On every triangulation, for quadrature rules with positive weights. -/
theorem C110_triangulation {E : Type} [Fintype E] [DecidableEq E] {K : Triangulation E}
    {R : VolumeRule} {S : SideRule} {γ : ℝ} (hγ : 1 < γ) {rs : Riemann} (hrs : rs.AnyDim)
    (hK : K.Conforming) {bcs : Conditions} (hc : K.Covered bcs) (hR : ∀ q, 0 < R.w q) (hn : 0 < R.n)
    (hS : ∀ q, 0 < S.w q) (dt : ℝ) (hdt : 0 < dt) (ts : List ℚ)
    (x0 : HdgState 2 4 (E × Fin R.n) ((E × Fin 3) × Fin S.n))
    (xs : List (HdgState 2 4 (E × Fin R.n) ((E × Fin 3) × Fin S.n)))
    (hx : ∀ x ∈ xs, ∃ tr hat kind,
      LowestOrder γ rs (K.mesh R S) ((K.mesh R S).mask bcs) (K.cells R S) x tr hat kind ∧
      LowestOrder.Sound γ x hat)
    (h : _root_.Spec.Satisfies (hdgStep (K.mesh R S) ((K.mesh R S).mask bcs)
      (K.space 4 (fun _ => 0) (fun _ => 0) R S) (Scheme.implicitEuler.quotient dt)) x0 x0 ts xs)
    (h0 : ∀ v, IsGasState γ (x0.U v)) : ∀ x ∈ xs, ∀ v, IsGasState γ (x.U v) :=
  C110_run hγ hrs _ _ (K.cells R S) (triangulation_fits hK hc hR hn hS) _
    (triangulation_indicators hK _ _) dt hdt ts x0 xs hx h h0

/-! ### Examples -/

theorem rest_isGas {s e : ℝ} (hs : 0 < s) (he : 0 < e) : IsGasState (7 / 5) ![s, 0, e] := by
  rw [isGasState_iff (by norm_num)]
  refine ⟨hs, ?_⟩
  have : mom (![s, 0, e] : Fin 3 → ℝ) = fun _ => 0 := by
    funext i; fin_cases i; rfl
  rw [this]
  show (fun _ : Fin 1 => (0 : ℝ)) ⬝ᵥ (fun _ => 0) < 2 * (s * e)
  simp [dotProduct, hs, he]

theorem rest_sound (s : ℝ) (hs : s ≠ 0) : ∃ (UHat : Flow 1) (p ρ : ℝ),
    conservativeFields (7 / 5) ![s, 0, s * (25 / 14)] = .ok UHat ∧ pressure (7 / 5) UHat = .ok p ∧
    density (7 / 5) UHat = .ok ρ ∧ 0 ≤ 7 / 5 * p / ρ := by
  obtain ⟨U, hU, -⟩ := rest_numerical s hs
  have e : (consVec s (0 : Fin 1 → ℝ) (s * (25 / 14))) = ![s, 0, s * (25 / 14)] := consVec_one _ _ _
  rw [e] at hU
  obtain ⟨e1, -, -, -, e2, -⟩ := conservative_all (n := 1) (w := ![s, 0, s * (25 / 14)]) hs hU
  refine ⟨U, gasPressure (n := 1) (7 / 5) ![s, 0, s * (25 / 14)], s, hU, by simp [pressure, EOS.pressure, e2, equation, equationE],
    by simp [density, EOS.density, e1, equation, equationE], ?_⟩
  have hm : mom (![s, 0, s * (25 / 14)] : Fin 3 → ℝ) = fun _ : Fin 1 => 0 := by
    funext i; fin_cases i; rfl
  have hp : gasPressure (n := 1) (7 / 5) ![s, 0, s * (25 / 14)] = s * (5 / 7) := by
    rw [gasPressure, hm]
    show (7 / 5 - 1) * (s * (25 / 14) - (fun _ : Fin 1 => (0 : ℝ)) ⬝ᵥ (fun _ => 0) / (2 * s)) = _
    simp [dotProduct]
    ring
  rw [hp]
  show 0 ≤ 7 / 5 * (s * (5 / 7)) / s
  rw [show 7 / 5 * (s * (5 / 7)) / s = 1 by field_simp]
  exact zero_le_one

theorem loop_sound (s : ℝ) (hs : s ≠ 0) :
    LowestOrder.Sound (7 / 5) (loopState s) (fun _ => ![s, 0, s * (25 / 14)]) where
  inviscid := fun _ => rfl
  facets := fun _ => rest_sound s hs
  sponge := fun _ => by
    have e : stateVec (7 / 5) loopTarget = .ok ![1 / 60, 0, 1 / 60 * (25 / 14)] := by
      have : consVec (1 / 60) (0 : Fin 1 → ℝ) (1 / 60 * (25 / 14)) = _ := consVec_one _ 0 _
      simpa [loopTarget, stateVec, density, EOS.density, momentum, energy, equation, equationE, bind,
        Except.bind] using this
    refine .inr ⟨9, loopTarget, _, by norm_num, e, rest_isGas (by norm_num) (by norm_num), ?_⟩
    simp only [spongeResidual, e, bind, Except.bind, Except.ok.injEq]
    funext i
    fin_cases i <;> simp [loopState]
    ring

/-- C110, concrete instance: two steps of a gas in a sponge layer. -/
example : ∀ x ∈ [loopState (23 / 200), loopState (53 / 2000)], ∀ v, IsGasState (7 / 5) (x.U v) :=
  C110_run (by norm_num) (.inl rfl) loopMesh (fun _ => 1) loopCells loop_fits loopSpace loop_indicators
    1 one_pos [1, 2] (loopState 1) _
    (fun x hx => by
      simp only [List.mem_cons, List.not_mem_nil, or_false] at hx
      rcases hx with rfl | rfl
      · exact ⟨_, _, _, loop_lowestOrder _ (by norm_num), loop_sound _ (by norm_num)⟩
      · exact ⟨_, _, _, loop_lowestOrder _ (by norm_num), loop_sound _ (by norm_num)⟩)
    ⟨loopCell_step .implicitEuler _ _ _ _ _ (by
        simp only [Scheme.quotient, _root_.Spec.backwardEuler]; norm_num),
      loopCell_step .implicitEuler _ _ _ _ _ (by
        simp only [Scheme.quotient, _root_.Spec.backwardEuler]; norm_num), trivial⟩
    (fun _ => rest_isGas one_pos (by norm_num))

/-- C110, concrete instance: two cells that exchange gas, a step of length 1/4 from the densities 7/2
and 1/2 to 3 and 1. -/
example : ∀ v, IsGasState (7 / 5) ((pairState 1).U v) :=
  C110_step (by norm_num) (.inl rfl) pairMesh (fun _ => 1) pairCells pair_fits pairSpace
    pair_indicators (1 / 4) (by norm_num) 1 (pairState 1) (pairState (1 * (1 + 2 * (1 / 4))))
    (pairState 0) _ _ _ (pair_lowestOrder 1)
    ⟨fun _ => rfl, fun _ => by
      have := rest_sound 2 two_ne_zero
      rwa [show (2 : ℝ) * (25 / 14) = 25 / 7 by norm_num] at this, fun _ => .inl rfl⟩
    (pair_step _ _ (by norm_num) _ _)
    (fun v => by cases v <;> exact rest_isGas (by norm_num) (by norm_num))

/-- **C110** With the second order method it does not hold: the run of `C89_fails_bdf2` meets every
other assumption, starts from a gas and ends with none. -/
theorem C110_fails_bdf2 :
    _root_.Spec.Satisfies (hdgStep loopMesh (fun _ => 1) loopSpace (Scheme.bdf2.quotient 1))
      (loopState 1) (loopState 1) [1, 2] [loopState (11 / 70), loopState (-1 / 294)] ∧
    (∀ x ∈ [loopState (11 / 70), loopState (-1 / 294)], ∃ tr hat kind,
      LowestOrder (7 / 5) .laxFriedrich loopMesh (fun _ => 1) loopCells x tr hat kind ∧
      LowestOrder.Sound (7 / 5) x hat) ∧
    (∀ v, IsGasState (7 / 5) ((loopState 1).U v)) ∧
    ∀ v, ¬ IsGasState (7 / 5) ((loopState (-1 / 294)).U v) := by
  refine ⟨C89_fails_bdf2.1, ?_, fun _ => rest_isGas one_pos (by norm_num), ?_⟩
  · intro x hx
    simp only [List.mem_cons, List.not_mem_nil, or_false] at hx
    rcases hx with rfl | rfl
    · exact ⟨_, _, _, loop_lowestOrder _ (by norm_num), loop_sound _ (by norm_num)⟩
    · exact ⟨_, _, _, loop_lowestOrder _ (by norm_num), loop_sound _ (by norm_num)⟩
  · intro v hv
    have h1 := ((isGasState_iff (by norm_num)).1 hv).1
    have h2 := C89_fails_bdf2.2.2.2
    exact absurd h1 (not_lt.2 h2.le)

end Dream
