import Verif.Model.Flow
import Verif.Spec.Gas

namespace Dream
open Matrix Spec

variable {n : ℕ} {γ : ℝ}

/-- Every field present in `U` has the value it has in the state `S`. -/
structure Flow.From (U : Flow n) (S : GasState n) : Prop where
  rho : ∀ v, U.rho = some v → v = S.rho
  u : ∀ v, U.u = some v → v = S.u
  rho_u : ∀ v, U.rho_u = some v → v = S.rho_u
  p : ∀ v, U.p = some v → v = S.p
  T : ∀ v, U.T = some v → v = S.T
  rho_E : ∀ v, U.rho_E = some v → v = S.rho_E
  E : ∀ v, U.E = some v → v = S.E
  rho_Ei : ∀ v, U.rho_Ei = some v → v = S.rho_Ei
  Ei : ∀ v, U.Ei = some v → v = S.Ei
  rho_Ek : ∀ v, U.rho_Ek = some v → v = S.rho_Ek
  Ek : ∀ v, U.Ek = some v → v = S.Ek
  rho_H : ∀ v, U.rho_H = some v → v = S.rho_H
  H : ∀ v, U.H = some v → v = S.H
  c : ∀ v, U.c = some v → v = S.c

theorem equation_ok {α} {r : Option α} {v : α} : equation r = .ok v ↔ r = some v := by
  cases r <;> simp [equation, equationE]

theorem equation_error {α} {r : Option α} {e : PyErr} :
    equation r = .error e ↔ r = none ∧ e = .valueError := by
  cases r <;> simp [equation, equationE, eq_comm]

theorem orElse_some {α} {a b : Option α} {v : α} :
    (a <|> b) = some v ↔ a = some v ∨ a = none ∧ b = some v := by
  cases a <;> simp

theorem orElse_none {α} {a b : Option α} :
    (a <|> b) = none ↔ a = none ∧ b = none := by
  cases a <;> simp

theorem bind_some {α β} {a : Option α} {f : α → Option β} {v : β} :
    (a >>= f) = some v ↔ ∃ x, a = some x ∧ f x = some v := by
  cases a <;> simp

theorem bind_none {α β} {a : Option α} {f : α → Option β} :
    (a >>= f) = none ↔ ∀ x, a = some x → f x = none := by
  cases a <;> simp

end Dream

namespace Spec
open Dream Matrix

variable {n : ℕ} {γ : ℝ} {S : GasState n}

theorem IdealGas.Ei_pos (h : IdealGas γ S) : 0 < S.Ei := by
  have := h.T_pos; have := h.caloric; have := h.gamma
  by_contra hn
  nlinarith [mul_nonneg (by linarith : (0:ℝ) ≤ γ) (by linarith : (0:ℝ) ≤ -S.Ei)]

theorem IdealGas.p_eq (h : IdealGas γ S) : S.p = (γ - 1) * (S.rho * S.Ei) := by
  have := h.gamma
  have h0 : γ ≠ 0 := by linarith
  rw [h.gas_law, h.caloric]; field_simp

theorem IdealGas.p_pos (h : IdealGas γ S) : 0 < S.p := by
  rw [h.p_eq]; have := h.gamma; have := h.Ei_pos; have := h.rho_pos
  have : 0 < γ - 1 := by linarith
  positivity

theorem IdealGas.c_sq (h : IdealGas γ S) : S.c ^ 2 = γ * (γ - 1) * S.Ei := by
  rw [h.sound, h.p_eq]; have := h.rho_pos; field_simp

theorem IdealGas.c_eq (h : IdealGas γ S) : S.c = √(γ * (γ - 1) * S.Ei) := by
  rw [← h.c_sq, Real.sqrt_sq h.sound_pos.le]

theorem IdealGas.of {rho : ℝ} {u : Fin n → ℝ} {Ei : ℝ} (hγ : 1 < γ) (hr : 0 < rho)
    (hE : 0 < Ei) : IdealGas γ (GasState.of γ rho u Ei) := by
  have h1 : 0 < γ - 1 := by linarith
  have h0 : 0 < γ := by linarith
  refine ⟨hγ, hr, by simp only [GasState.of]; positivity, ?_, rfl,
    by simp only [GasState.of]; positivity, ?_, rfl, rfl, ?_, rfl, rfl, rfl, rfl, rfl⟩ <;>
    simp only [GasState.of]
  · field_simp
  · rw [Real.sq_sqrt (by positivity)]; field_simp
  · field_simp; ring

/-- A consistent state is determined by density, velocity and specific inner energy. -/
theorem IdealGas.eq_of (h : IdealGas γ S) : S = GasState.of γ S.rho S.u S.Ei := by
  have hγ := h.gamma; have hr := h.rho_pos
  have e1 := h.momentum; have e2 := h.p_eq; have e3 := h.caloric; have e4 := h.rho_E
  have e5 := h.total; have e6 := h.rho_Ei; have e7 := h.rho_Ek; have e8 := h.kinetic
  have e9 := h.rho_H; have e10 := h.enthalpy; have e11 := h.c_eq
  obtain ⟨rho, u, rho_u, p, T, rho_E, E, rho_Ei, Ei, rho_Ek, Ek, rho_H, H, c⟩ := S
  simp only at *
  subst e1 e2 e3 e8 e5 e4 e6 e7 e11
  have : H = γ * Ei + (u ⬝ᵥ u) / 2 := by
    rw [e10]; field_simp; ring
  subst e9 this
  rfl

end Spec

namespace Dream
open Spec Matrix

/-- Close an identity between quantities of the consistent state `h`: express every
quantity by density, specific inner energy and velocity and clear denominators. -/
macro "gas_done" h:term : tactic => `(tactic| (
  have hγ1 := IdealGas.gamma $h
  have g1 := sub_ne_zero.2 hγ1.ne'
  have g0 := (lt_trans one_pos hγ1).ne'
  have r0 := (IdealGas.rho_pos $h).ne'
  have ei0 := (IdealGas.Ei_pos $h).ne'
  simp only [IdealGas.rho_H $h, IdealGas.rho_E $h, IdealGas.rho_Ei $h, IdealGas.rho_Ek $h,
    IdealGas.enthalpy $h, IdealGas.total $h, IdealGas.kinetic $h, IdealGas.momentum $h,
    IdealGas.p_eq $h, IdealGas.c_sq $h, IdealGas.caloric $h,
    smul_dotProduct, dotProduct_smul, smul_eq_mul]
  try rw [inv_smul_smul₀ r0]
  try field_simp
  try ring))

end Dream
