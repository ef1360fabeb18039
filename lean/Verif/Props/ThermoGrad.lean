import Verif.Lemmas.FlowGrad
import Verif.Props.Thermo

/-!
# C23: gradient formulas are the derivatives of the field formulas

`S` is a field of consistent ideal-gas states over space. At a point `x` the user supplies
any subset of the values (`U.From (S x)`) and any subset of the gradients (`D.From S x`). Each
theorem says that a gradient that is computed is the gradient of the quantity.
-/

namespace Dream
open Matrix Spec

variable {n : ℕ} {γ : ℝ} {U : Flow n} {D : Grads n} {S : (Fin n → ℝ) → GasState n}
  {x : Fin n → ℝ}

/-- **C23** density gradient -/
theorem C23_density_gradient (hS : ∀ y, IdealGas γ (S y)) (hU : U.From (S x)) (hD : D.From S x)
    {g : Fin n → ℝ} (h : densityGradient γ U D = .ok g) : IsGrad (fun y => (S y).rho) x g := by
  simp only [densityGradient, EOS.densityGradient, equation_ok, orElse_some, bind_some] at h
  rcases h with h | ⟨-, ⟨p, hp, T, hT, gp, hgp, gT, hgT, h⟩ |
    ⟨-, T, hT, r, hr, gT, hgT, gr, hgr, h⟩⟩
  · exact hD.grad_rho _ h
  · obtain rfl := hU.p _ hp; obtain rfl := hU.T _ hT; obtain rfl := Option.some.inj h
    intro j
    simpa using d_rho_of_p_T (σ := fun t => S (x + t • Pi.single j 1)) (fun t => hS _)
      (hD.grad_p _ hgp j) (hD.grad_T _ hgT j)
  · obtain rfl := hU.T _ hT; obtain rfl := hU.rho_Ei _ hr; obtain rfl := Option.some.inj h
    intro j
    simpa using d_rho_of_Ei_T (σ := fun t => S (x + t • Pi.single j 1)) (fun t => hS _)
      (hD.grad_rho_Ei _ hgr j) (hD.grad_T _ hgT j)

/-- **C23** pressure gradient -/
theorem C23_pressure_gradient (hS : ∀ y, IdealGas γ (S y)) (hU : U.From (S x)) (hD : D.From S x)
    {g : Fin n → ℝ} (h : pressureGradient γ U D = .ok g) : IsGrad (fun y => (S y).p) x g := by
  simp only [pressureGradient, EOS.pressureGradient, equation_ok, orElse_some, bind_some] at h
  rcases h with h | ⟨-, ⟨r, hr, T, hT, gr, hgr, gT, hgT, h⟩ | ⟨-, gr, hgr, h⟩⟩
  · exact hD.grad_p _ h
  · obtain rfl := hU.rho _ hr; obtain rfl := hU.T _ hT; obtain rfl := Option.some.inj h
    intro j
    simpa using d_p_of_rho_T (σ := fun t => S (x + t • Pi.single j 1)) (fun t => hS _)
      (hD.grad_rho _ hgr j) (hD.grad_T _ hgT j)
  · obtain rfl := Option.some.inj h
    intro j
    simpa using d_p_of_Ei (σ := fun t => S (x + t • Pi.single j 1)) (fun t => hS _)
      (hD.grad_rho_Ei _ hgr j)

/-- **C23** temperature gradient -/
theorem C23_temperature_gradient (hS : ∀ y, IdealGas γ (S y)) (hU : U.From (S x))
    (hD : D.From S x) {g : Fin n → ℝ} (h : temperatureGradient γ U D = .ok g) :
    IsGrad (fun y => (S y).T) x g := by
  simp only [temperatureGradient, EOS.temperatureGradient, equation_ok, orElse_some,
    bind_some] at h
  rcases h with h | ⟨-, ⟨r, hr, p, hp, gp, hgp, gr, hgr, h⟩ | ⟨-, gr, hgr, h⟩⟩
  · exact hD.grad_T _ h
  · obtain rfl := hU.rho _ hr; obtain rfl := hU.p _ hp; obtain rfl := Option.some.inj h
    intro j
    simpa using d_T_of_rho_p (σ := fun t => S (x + t • Pi.single j 1)) (fun t => hS _)
      (hD.grad_rho _ hgr j) (hD.grad_p _ hgp j)
  · obtain rfl := Option.some.inj h
    intro j
    simpa using d_T_of_Ei (σ := fun t => S (x + t • Pi.single j 1)) (fun t => hS _)
      (hD.grad_Ei _ hgr j)

/-- **C23** velocity gradient -/
theorem C23_velocity_gradient (hS : ∀ y, IdealGas γ (S y)) (hU : U.From (S x))
    (hD : D.From S x) {g : Matrix (Fin n) (Fin n) ℝ} (h : velocityGradient U D = .ok g) :
    IsJac (fun y => (S y).u) x g := by
  simp only [velocityGradient, equation_ok, orElse_some, bind_some] at h
  rcases h with h | ⟨-, r, hr, m, hm, gr, hgr, gm, hgm, h⟩
  · exact hD.grad_u _ h
  · obtain rfl := hU.rho _ hr; obtain rfl := hU.rho_u _ hm; obtain rfl := Option.some.inj h
    intro i j
    simpa [vecMulVec_apply] using d_u_of_momentum (σ := fun t => S (x + t • Pi.single j 1))
      (fun t => hS _) i (hD.grad_rho _ hgr j) (hD.grad_rho_u _ hgm i j)

/-- **C23** momentum gradient -/
theorem C23_momentum_gradient (hS : ∀ y, IdealGas γ (S y)) (hU : U.From (S x))
    (hD : D.From S x) {g : Matrix (Fin n) (Fin n) ℝ} (h : momentumGradient U D = .ok g) :
    IsJac (fun y => (S y).rho_u) x g := by
  simp only [momentumGradient, equation_ok, orElse_some, bind_some] at h
  rcases h with h | ⟨-, r, hr, m, hm, gr, hgr, gm, hgm, h⟩
  · exact hD.grad_rho_u _ h
  · obtain rfl := hU.rho _ hr; obtain rfl := hU.u _ hm; obtain rfl := Option.some.inj h
    intro i j
    simpa [vecMulVec_apply] using d_momentum_of_u (σ := fun t => S (x + t • Pi.single j 1))
      (fun t => hS _) i (hD.grad_rho _ hgr j) (hD.grad_u _ hgm i j)

section sums
variable (hS : ∀ y, IdealGas γ (S y)) (hD : D.From S x)
include hS hD

/-- **C23** energy gradient -/
theorem C23_energy_gradient {g : Fin n → ℝ} (h : energyGradient D = .ok g) :
    IsGrad (fun y => (S y).rho_E) x g := by
  simp only [energyGradient, equation_ok, orElse_some, bind_some] at h
  rcases h with h | ⟨-, a, ha, b, hb, h⟩
  · exact hD.grad_rho_E _ h
  · obtain rfl := Option.some.inj h
    intro j
    have e : (fun y => (S y).rho_E) = fun y => (S y).rho_Ei + (S y).rho_Ek :=
      funext fun y => by have h := hS y; gas_done h
    rw [e]
    exact (hD.grad_rho_Ei _ ha j).fun_add (hD.grad_rho_Ek _ hb j)

/-- **C23** specific energy gradient -/
theorem C23_specific_energy_gradient {g : Fin n → ℝ} (h : specificEnergyGradient D = .ok g) :
    IsGrad (fun y => (S y).E) x g := by
  simp only [specificEnergyGradient, equation_ok, orElse_some, bind_some] at h
  rcases h with h | ⟨-, a, ha, b, hb, h⟩
  · exact hD.grad_E _ h
  · obtain rfl := Option.some.inj h
    intro j
    have e : (fun y => (S y).E) = fun y => (S y).Ei + (S y).Ek := funext fun y => (hS y).total
    rw [e]
    exact (hD.grad_Ei _ ha j).fun_add (hD.grad_Ek _ hb j)

/-- **C23** inner energy gradient -/
theorem C23_inner_energy_gradient {g : Fin n → ℝ} (h : innerEnergyGradient D = .ok g) :
    IsGrad (fun y => (S y).rho_Ei) x g := by
  simp only [innerEnergyGradient, equation_ok, orElse_some, bind_some] at h
  rcases h with h | ⟨-, a, ha, b, hb, h⟩
  · exact hD.grad_rho_Ei _ h
  · obtain rfl := Option.some.inj h
    intro j
    have e : (fun y => (S y).rho_Ei) = fun y => (S y).rho_E - (S y).rho_Ek :=
      funext fun y => by have h := hS y; gas_done h
    rw [e]
    exact (hD.grad_rho_E _ ha j).fun_sub (hD.grad_rho_Ek _ hb j)

/-- **C23** specific inner energy gradient -/
theorem C23_specific_inner_energy_gradient {g : Fin n → ℝ}
    (h : specificInnerEnergyGradient D = .ok g) : IsGrad (fun y => (S y).Ei) x g := by
  simp only [specificInnerEnergyGradient, equation_ok, orElse_some, bind_some] at h
  rcases h with h | ⟨-, a, ha, b, hb, h⟩
  · exact hD.grad_Ei _ h
  · obtain rfl := Option.some.inj h
    intro j
    have e : (fun y => (S y).Ei) = fun y => (S y).E - (S y).Ek :=
      funext fun y => by have h := hS y; gas_done h
    rw [e]
    exact (hD.grad_E _ ha j).fun_sub (hD.grad_Ek _ hb j)

/-- **C23** enthalpy gradient -/
theorem C23_enthalpy_gradient {g : Fin n → ℝ} (h : enthalpyGradient D = .ok g) :
    IsGrad (fun y => (S y).rho_H) x g := by
  simp only [enthalpyGradient, equation_ok, orElse_some, bind_some] at h
  rcases h with h | ⟨-, a, ha, b, hb, h⟩
  · exact hD.grad_rho_H _ h
  · obtain rfl := Option.some.inj h
    intro j
    have e : (fun y => (S y).rho_H) = fun y => (S y).rho_E + (S y).p :=
      funext fun y => by have h := hS y; gas_done h
    rw [e]
    exact (hD.grad_rho_E _ ha j).fun_add (hD.grad_p _ hb j)

end sums

/-- **C23** kinetic energy gradient -/
theorem C23_kinetic_energy_gradient (hS : ∀ y, IdealGas γ (S y)) (hU : U.From (S x))
    (hD : D.From S x) {g : Fin n → ℝ} (h : kineticEnergyGradient U D = .ok g) :
    IsGrad (fun y => (S y).rho_Ek) x g := by
  simp only [kineticEnergyGradient, equation_ok, orElse_some, bind_some] at h
  rcases h with h | ⟨-, ⟨a, ha, b, hb, h⟩ | ⟨-, ⟨r, hr, u, hu, gr, hgr, gu, hgu, h⟩ |
    ⟨-, r, hr, m, hm, gr, hgr, gm, hgm, h⟩⟩⟩
  · exact hD.grad_rho_Ek _ h
  · obtain rfl := Option.some.inj h
    intro j
    have e : (fun y => (S y).rho_Ek) = fun y => (S y).rho_E - (S y).rho_Ei :=
      funext fun y => by have h := hS y; gas_done h
    rw [e]
    exact (hD.grad_rho_E _ ha j).fun_sub (hD.grad_rho_Ei _ hb j)
  · obtain rfl := hU.rho _ hr; obtain rfl := hU.u _ hu; obtain rfl := Option.some.inj h
    intro j
    simpa [mulVec] using d_rho_Ek_of_u (σ := fun t => S (x + t • Pi.single j 1))
      (fun t => hS _) (hD.grad_rho _ hgr j) (u' := fun i => gu i j)
      (fun i => hD.grad_u _ hgu i j)
  · obtain rfl := hU.rho _ hr; obtain rfl := hU.rho_u _ hm; obtain rfl := Option.some.inj h
    intro j
    simpa [mulVec] using d_rho_Ek_of_momentum (σ := fun t => S (x + t • Pi.single j 1))
      (fun t => hS _) (hD.grad_rho _ hgr j) (m' := fun i => gm i j)
      (fun i => hD.grad_rho_u _ hgm i j)

/-- **C23** specific kinetic energy gradient -/
theorem C23_specific_kinetic_energy_gradient (hS : ∀ y, IdealGas γ (S y)) (hU : U.From (S x))
    (hD : D.From S x) {g : Fin n → ℝ} (h : specificKineticEnergyGradient U D = .ok g) :
    IsGrad (fun y => (S y).Ek) x g := by
  simp only [specificKineticEnergyGradient, equation_ok, orElse_some, bind_some] at h
  rcases h with h | ⟨-, ⟨a, ha, b, hb, h⟩ | ⟨-, ⟨u, hu, gu, hgu, h⟩ |
    ⟨-, r, hr, m, hm, gr, hgr, gm, hgm, h⟩⟩⟩
  · exact hD.grad_Ek _ h
  · obtain rfl := Option.some.inj h
    intro j
    have e : (fun y => (S y).Ek) = fun y => (S y).E - (S y).Ei :=
      funext fun y => by have h := hS y; gas_done h
    rw [e]
    exact (hD.grad_E _ ha j).fun_sub (hD.grad_Ei _ hb j)
  · obtain rfl := hU.u _ hu; obtain rfl := Option.some.inj h
    intro j
    simpa [mulVec] using d_Ek_of_u (σ := fun t => S (x + t • Pi.single j 1))
      (fun t => hS _) (u' := fun i => gu i j) (fun i => hD.grad_u _ hgu i j)
  · obtain rfl := hU.rho _ hr; obtain rfl := hU.rho_u _ hm; obtain rfl := Option.some.inj h
    intro j
    simpa [mulVec] using d_Ek_of_momentum (σ := fun t => S (x + t • Pi.single j 1))
      (fun t => hS _) (hD.grad_rho _ hgr j) (m' := fun i => gm i j)
      (fun i => hD.grad_rho_u _ hgm i j)

/-- A non-constant field of consistent states: density `1 + y₀²`, velocity `(y₁, 1)`,
specific inner energy `1`. -/
noncomputable def sampleField (y : Fin 2 → ℝ) : GasState 2 :=
  GasState.of (7 / 5) (1 + y 0 ^ 2) ![y 1, 1] 1

/-- The hypotheses of the C23 theorems hold for `sampleField` at the point `(3, 2)`, where
the density gradient is `(6, 0)`: supplying the gradients of density and of the specific
inner energy, the velocity and its gradient. -/
example : (∀ y, IdealGas (7 / 5) (sampleField y)) ∧
    ({ rho := some 10, u := some ![2, 1] } : Flow 2).From (sampleField ![3, 2]) ∧
    ({ grad_rho := some ![6, 0], grad_Ei := some ![0, 0], grad_u := some !![0, 1; 0, 0] } :
      Grads 2).From sampleField ![3, 2] := by
  refine ⟨fun y => IdealGas.of (by norm_num) (by positivity) (by norm_num), ?_, ?_⟩
  · constructor <;> simp [sampleField, GasState.of]; norm_num
  · have hid : HasDerivAt (fun t : ℝ => 3 + t) 1 0 := by
      simpa using (hasDerivAt_id (0 : ℝ)).const_add 3
    constructor <;> simp [sampleField, GasState.of]
    · intro j
      fin_cases j
      · have := (hid.fun_pow 2).const_add 1
        norm_num at this
        simpa using this
      · simpa using hasDerivAt_const (0 : ℝ) _
    · intro i j
      fin_cases i <;> fin_cases j
      · simpa using hasDerivAt_const (0 : ℝ) _
      · simpa using (hasDerivAt_id (0 : ℝ)).const_add 2
      · simpa using hasDerivAt_const (0 : ℝ) _
      · simpa using hasDerivAt_const (0 : ℝ) _
    · intro j
      fin_cases j
      · simpa using hasDerivAt_const (0 : ℝ) _
      · simpa using hasDerivAt_const (0 : ℝ) _

/-- On that field the temperature gradient (from the inner energy) and the kinetic energy
gradient (from density and velocity) are computed. -/
example : kineticEnergyGradient ({ rho := some 10, u := some ![2, 1] } : Flow 2)
    { grad_rho := some ![6, 0], grad_u := some !![0, 1; 0, 0] } = .ok ![15, 20] := by
  simp only [kineticEnergyGradient, equation, equationE]
  norm_num
  constructor <;> norm_num [vecHead, vecTail, mulVec, dotProduct, Fin.sum_univ_two]

end Dream
