import Verif.Lemmas.Flow
import Mathlib.Analysis.Calculus.Deriv.Inv
import Mathlib.Analysis.Calculus.Deriv.Add
import Mathlib.Analysis.Calculus.Deriv.Mul
import Mathlib.Analysis.Calculus.Deriv.Pow

namespace Dream
open Matrix Spec

variable {n : ℕ} {γ : ℝ}

/-- Every gradient present in `D` is the gradient at `x` of the corresponding quantity of
the field of states `S`. -/
structure Grads.From (D : Grads n) (S : (Fin n → ℝ) → GasState n) (x : Fin n → ℝ) : Prop where
  grad_rho : ∀ g, D.grad_rho = some g → IsGrad (fun y => (S y).rho) x g
  grad_u : ∀ g, D.grad_u = some g → IsJac (fun y => (S y).u) x g
  grad_rho_u : ∀ g, D.grad_rho_u = some g → IsJac (fun y => (S y).rho_u) x g
  grad_p : ∀ g, D.grad_p = some g → IsGrad (fun y => (S y).p) x g
  grad_T : ∀ g, D.grad_T = some g → IsGrad (fun y => (S y).T) x g
  grad_rho_E : ∀ g, D.grad_rho_E = some g → IsGrad (fun y => (S y).rho_E) x g
  grad_E : ∀ g, D.grad_E = some g → IsGrad (fun y => (S y).E) x g
  grad_rho_Ei : ∀ g, D.grad_rho_Ei = some g → IsGrad (fun y => (S y).rho_Ei) x g
  grad_Ei : ∀ g, D.grad_Ei = some g → IsGrad (fun y => (S y).Ei) x g
  grad_rho_Ek : ∀ g, D.grad_rho_Ek = some g → IsGrad (fun y => (S y).rho_Ek) x g
  grad_Ek : ∀ g, D.grad_Ek = some g → IsGrad (fun y => (S y).Ek) x g
  grad_rho_H : ∀ g, D.grad_rho_H = some g → IsGrad (fun y => (S y).rho_H) x g
  grad_H : ∀ g, D.grad_H = some g → IsGrad (fun y => (S y).H) x g

section curve
variable {σ : ℝ → GasState n} (hσ : ∀ t, IdealGas γ (σ t))
include hσ

theorem d_rho_of_p_T {p' T' : ℝ} (hp : HasDerivAt (fun t => (σ t).p) p' 0)
    (hT : HasDerivAt (fun t => (σ t).T) T' 0) :
    HasDerivAt (fun t => (σ t).rho)
      (γ / (γ - 1) * (1 / (σ 0).T * p' - 1 / (σ 0).T ^ 2 * ((σ 0).p * T'))) 0 := by
  have e : (fun t => (σ t).rho) = fun t => γ / (γ - 1) * ((σ t).p / (σ t).T) :=
    funext fun t => by have h := hσ t; gas_done h
  have hT0 := (hσ 0).T_pos.ne'
  rw [e]
  refine ((hp.fun_div hT hT0).const_mul _).congr_deriv ?_
  field_simp

theorem d_rho_of_Ei_T {p' T' : ℝ} (hp : HasDerivAt (fun t => (σ t).rho_Ei) p' 0)
    (hT : HasDerivAt (fun t => (σ t).T) T' 0) :
    HasDerivAt (fun t => (σ t).rho)
      (γ * (1 / (σ 0).T * p' - 1 / (σ 0).T ^ 2 * ((σ 0).rho_Ei * T'))) 0 := by
  have e : (fun t => (σ t).rho) = fun t => γ * ((σ t).rho_Ei / (σ t).T) :=
    funext fun t => by have h := hσ t; gas_done h
  have hT0 := (hσ 0).T_pos.ne'
  rw [e]
  refine ((hp.fun_div hT hT0).const_mul _).congr_deriv ?_
  field_simp

theorem d_p_of_rho_T {r' T' : ℝ} (hr : HasDerivAt (fun t => (σ t).rho) r' 0)
    (hT : HasDerivAt (fun t => (σ t).T) T' 0) :
    HasDerivAt (fun t => (σ t).p)
      ((γ - 1) / γ * ((σ 0).T * r' + (σ 0).rho * T')) 0 := by
  have e : (fun t => (σ t).p) = fun t => (γ - 1) / γ * ((σ t).rho * (σ t).T) :=
    funext fun t => (hσ t).gas_law
  rw [e]
  exact ((hr.fun_mul hT).const_mul _).congr_deriv (by ring)

theorem d_p_of_Ei {r' : ℝ} (hr : HasDerivAt (fun t => (σ t).rho_Ei) r' 0) :
    HasDerivAt (fun t => (σ t).p) ((γ - 1) * r') 0 := by
  have e : (fun t => (σ t).p) = fun t => (γ - 1) * (σ t).rho_Ei :=
    funext fun t => by have h := hσ t; gas_done h
  rw [e]
  exact hr.const_mul _

theorem d_T_of_rho_p {r' p' : ℝ} (hr : HasDerivAt (fun t => (σ t).rho) r' 0)
    (hp : HasDerivAt (fun t => (σ t).p) p' 0) :
    HasDerivAt (fun t => (σ t).T)
      (γ / (γ - 1) * (1 / (σ 0).rho * p' - 1 / (σ 0).rho ^ 2 * ((σ 0).p * r'))) 0 := by
  have e : (fun t => (σ t).T) = fun t => γ / (γ - 1) * ((σ t).p / (σ t).rho) :=
    funext fun t => by have h := hσ t; gas_done h
  have hT0 := (hσ 0).rho_pos.ne'
  rw [e]
  refine ((hp.fun_div hr hT0).const_mul _).congr_deriv ?_
  field_simp

theorem d_T_of_Ei {r' : ℝ} (hr : HasDerivAt (fun t => (σ t).Ei) r' 0) :
    HasDerivAt (fun t => (σ t).T) (γ * r') 0 := by
  have e : (fun t => (σ t).T) = fun t => γ * (σ t).Ei := funext fun t => (hσ t).caloric
  rw [e]
  exact hr.const_mul _

theorem d_u_of_momentum {r' m' : ℝ} (i : Fin n) (hr : HasDerivAt (fun t => (σ t).rho) r' 0)
    (hm : HasDerivAt (fun t => (σ t).rho_u i) m' 0) :
    HasDerivAt (fun t => (σ t).u i)
      (1 / (σ 0).rho * m' - 1 / (σ 0).rho ^ 2 * ((σ 0).rho_u i * r')) 0 := by
  have e : (fun t => (σ t).u i) = fun t => (σ t).rho_u i / (σ t).rho :=
    funext fun t => by
      have := (hσ t).rho_pos.ne'
      rw [(hσ t).momentum, Pi.smul_apply, smul_eq_mul]; field_simp
  have hT0 := (hσ 0).rho_pos.ne'
  rw [e]
  refine (hm.fun_div hr hT0).congr_deriv ?_
  field_simp

theorem d_momentum_of_u {r' u' : ℝ} (i : Fin n) (hr : HasDerivAt (fun t => (σ t).rho) r' 0)
    (hu : HasDerivAt (fun t => (σ t).u i) u' 0) :
    HasDerivAt (fun t => (σ t).rho_u i) ((σ 0).rho * u' + (σ 0).u i * r') 0 := by
  have e : (fun t => (σ t).rho_u i) = fun t => (σ t).rho * (σ t).u i :=
    funext fun t => by rw [(hσ t).momentum, Pi.smul_apply, smul_eq_mul]
  rw [e]
  exact (hr.fun_mul hu).congr_deriv (by ring)

theorem d_Ek_of_u {u' : Fin n → ℝ} (hu : ∀ i, HasDerivAt (fun t => (σ t).u i) (u' i) 0) :
    HasDerivAt (fun t => (σ t).Ek) (u' ⬝ᵥ (σ 0).u) 0 := by
  have e : (fun t => (σ t).Ek) = fun t => (∑ i, (σ t).u i * (σ t).u i) / 2 :=
    funext fun t => (hσ t).kinetic
  rw [e]
  refine ((HasDerivAt.fun_sum fun i _ => (hu i).fun_mul (hu i)).div_const 2).congr_deriv ?_
  simp only [dotProduct, Finset.sum_div]
  exact Finset.sum_congr rfl fun i _ => by ring

theorem d_rho_Ek_of_u {r' : ℝ} {u' : Fin n → ℝ} (hr : HasDerivAt (fun t => (σ t).rho) r' 0)
    (hu : ∀ i, HasDerivAt (fun t => (σ t).u i) (u' i) 0) :
    HasDerivAt (fun t => (σ t).rho_Ek)
      ((σ 0).rho * (u' ⬝ᵥ (σ 0).u) + 1 / 2 * ((σ 0).u ⬝ᵥ (σ 0).u) * r') 0 := by
  have e : (fun t => (σ t).rho_Ek) = fun t => (σ t).rho * (σ t).Ek :=
    funext fun t => (hσ t).rho_Ek
  rw [e]
  refine (hr.fun_mul (d_Ek_of_u hσ hu)).congr_deriv ?_
  rw [(hσ 0).kinetic]; ring

theorem d_Ek_of_momentum {r' : ℝ} {m' : Fin n → ℝ} (hr : HasDerivAt (fun t => (σ t).rho) r' 0)
    (hm : ∀ i, HasDerivAt (fun t => (σ t).rho_u i) (m' i) 0) :
    HasDerivAt (fun t => (σ t).Ek)
      (1 / (σ 0).rho ^ 2 * (m' ⬝ᵥ (σ 0).rho_u)
        - ((σ 0).rho_u ⬝ᵥ (σ 0).rho_u) / (σ 0).rho ^ 3 * r') 0 := by
  refine (d_Ek_of_u hσ fun i => d_u_of_momentum hσ i hr (hm i)).congr_deriv ?_
  have hr0 := (hσ 0).rho_pos.ne'
  rw [(hσ 0).momentum]
  simp only [dotProduct, Pi.smul_apply, smul_eq_mul, Finset.mul_sum, Finset.sum_div,
    Finset.sum_mul, ← Finset.sum_sub_distrib]
  exact Finset.sum_congr rfl fun i _ => by field_simp

theorem d_rho_Ek_of_momentum {r' : ℝ} {m' : Fin n → ℝ}
    (hr : HasDerivAt (fun t => (σ t).rho) r' 0)
    (hm : ∀ i, HasDerivAt (fun t => (σ t).rho_u i) (m' i) 0) :
    HasDerivAt (fun t => (σ t).rho_Ek)
      (1 / (σ 0).rho * (m' ⬝ᵥ (σ 0).rho_u)
        - 1 / 2 * ((σ 0).rho_u ⬝ᵥ (σ 0).rho_u) / (σ 0).rho ^ 2 * r') 0 := by
  have e : (fun t => (σ t).rho_Ek) = fun t => (σ t).rho * (σ t).Ek :=
    funext fun t => (hσ t).rho_Ek
  rw [e]
  refine (hr.fun_mul (d_Ek_of_momentum hσ hr hm)).congr_deriv ?_
  have hr0 := (hσ 0).rho_pos.ne'
  rw [(hσ 0).kinetic, (hσ 0).momentum]
  simp only [smul_dotProduct, dotProduct_smul, smul_eq_mul]
  field_simp
  ring

end curve

end Dream
