import Verif.Props.Sensors
import Verif.Props.Conditions

/-!
# C11: what the kinds of region sensors measure; C36: queries by name
-/

noncomputable section

namespace Dream

/-- **C11** The two L2 sensors write one number per field, the root of the integral of the sum of the
squares of its components; the other two region sensors write the integral of every component. -/
theorem C11_kinds {Pt : Type} (s : Sensor Pt) (integrate : (Pt → ℝ) → Name → ℝ) (r : Name)
    (hr : s.locs = [.region r]) :
    (s.kind = .domainL2 ∨ s.kind = .boundaryL2 →
      s.measure integrate false = .ok (s.fields.map fun f =>
        √(integrate (fun x => ((List.range f.dims.prod).map fun i => f.val x i ^ 2).sum) r))) ∧
    (s.kind = .domain ∨ s.kind = .boundary →
      s.measure integrate false = .ok (s.fields.flatMap fun f =>
        (List.range f.dims.prod).map fun i => integrate (fun x => f.val x i) r)) := by
  constructor
  · intro hk
    have h2 : s.kind.isL2 = true := by rcases hk with h | h <;> rw [h] <;> rfl
    have e : ∀ f : SField Pt, (List.range (SField.inner f).dim).map
        (fun i => integrate (fun x => (SField.inner f).val x i) r)
        = [integrate (fun x => ((List.range f.dims.prod).map fun i => f.val x i ^ 2).sum) r] := by
      intro f
      simp [SField.inner, SField.dim]
    have h3 : s.measureAt integrate false (.region r) = .ok (s.fields.map fun f =>
        √(integrate (fun x => ((List.range f.dims.prod).map fun i => f.val x i ^ 2).sum) r)) := by
      simp only [Sensor.measureAt, Sensor.openFields, h2, if_true, integrals, List.flatMap_map, e]
      simp only [Bool.false_eq_true, false_and, if_false]
      congr 1
      induction s.fields with
      | nil => rfl
      | cons f l ih => simpa [List.flatMap_cons] using ih
    rw [Sensor.measure, hr]
    simp only [List.isEmpty_cons, Bool.false_eq_true, if_false, List.mapM_cons, List.mapM_nil, h3]
    simp [Except.map, pure, Except.pure, bind, Except.bind]
  · intro hk
    have h2 : s.kind.isL2 = false := by rcases hk with h | h <;> rw [h] <;> rfl
    have h3 : s.measureAt integrate false (.region r) = .ok (s.fields.flatMap fun f =>
        (List.range f.dims.prod).map fun i => integrate (fun x => f.val x i) r) := by
      simp [Sensor.measureAt, Sensor.openFields, h2, integrals, SField.dim]
    rw [Sensor.measure, hr]
    simp only [List.isEmpty_cons, Bool.false_eq_true, if_false, List.mapM_cons, List.mapM_nil, h3]
    simp [Except.map, pure, Except.pure, bind, Except.bind]

/-- **C36** A query by name answers for the class that the name stands for; names that are not offered
raise `KeyError`. -/
theorem C36_named (C : Conditions) (hC : C.regions.Nodup) (s : Name) :
    (∀ k, C.options.get? s = some k → ∃ b, C.hasConditionNamed s = .ok b ∧
      (b = true ↔ ∃ r l, C.data.get? r = some l ∧ ∃ c ∈ l, c.isA k = true)) ∧
    (C.options.get? s = none → C.hasConditionNamed s = .error .keyError) := by
  refine ⟨fun k hk => ⟨C.hasCondition k, by simp only [Conditions.hasConditionNamed, hk], ?_⟩,
    fun h => by simp only [Conditions.hasConditionNamed, h]⟩
  exact (C36_queries C hC).2.1 k

/-- A sensor on the boundary with a vector field. -/
example : (⟨.boundaryL2, "a", 1, [⟨"u", [2], fun x _ => x⟩], [.region "wall".toList]⟩ : Sensor ℝ).locs
    = [.region "wall".toList] := rfl

/-- The option `wall` is offered, `Wall` is not. -/
example : (⟨[("a".toList, [⟨0, .inviscidWall⟩])], [("wall".toList, .inviscidWall)], 1⟩ : Conditions).hasConditionNamed
      "wall".toList = .ok true ∧
    (⟨[("a".toList, [⟨0, .inviscidWall⟩])], [("wall".toList, .inviscidWall)], 1⟩ : Conditions).hasConditionNamed
      "Wall".toList = .error .keyError := ⟨rfl, rfl⟩

end Dream
