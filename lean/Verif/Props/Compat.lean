import Verif.Model.Compat
import Verif.Props.Conditions
import Verif.Props.Mixed

/-!
# C53: compatibility checks
-/

namespace Dream
open Spec

theorem checks_of_listed (m : MixedMethod) (cfg : FlowCfg) (meshPeriodic : Bool)
    (mesh : List Name) (opts : Dict Name CondClass) (C : Conditions) (L : Name → List Cond)
    (h2 : C.regions = (Conditions.init mesh opts).regions)
    (h3 : ∀ r ∈ mesh, C.data.get? r = some (L r)) :
    (initializeChecks m cfg meshPeriodic C = .ok () ↔
      (m = .inactive ↔ cfg.visc = .inviscid) ∧
      (meshPeriodic = true → ∃ r ∈ mesh, ∃ c ∈ L r, c.cls = .periodic)) ∧
    (¬ (m = .inactive ↔ cfg.visc = .inviscid) →
      initializeChecks m cfg meshPeriodic C = .error .typeError) ∧
    (initializeChecks m cfg meshPeriodic C ≠ .ok () →
      (m = .inactive ↔ cfg.visc = .inviscid) →
      initializeChecks m cfg meshPeriodic C = .error .valueError) := by
  have hC : C.regions.Nodup := h2 ▸ (C36_init mesh opts).1
  have hreg : ∀ r, r ∈ C.regions ↔ r ∈ mesh := fun r => by
    rw [h2]; exact (C36_init mesh opts).2.1 r
  have hper : C.hasCondition .periodic = true ↔
      ∃ r ∈ mesh, ∃ c ∈ L r, c.cls = .periodic := by
    rw [(C36_queries C hC).2.1]
    have hisA : ∀ c : Cond, c.isA .periodic = true ↔ c.cls = .periodic := by
      rintro ⟨i, k⟩
      cases k <;> (simp [Cond.isA]; try decide)
    constructor
    · rintro ⟨r, l, hr, c, hc, hk⟩
      have hm : r ∈ mesh := (hreg r).1 (List.mem_map.2 ⟨_, Dict.mem_of_get? hr, rfl⟩)
      have := h3 r hm
      rw [hr] at this
      exact ⟨r, hm, c, Option.some.inj this ▸ hc, (hisA c).1 hk⟩
    · rintro ⟨r, hm, c, hc, hk⟩
      exact ⟨r, _, h3 r hm, c, hc, (hisA c).2 hk⟩
  rw [← hper]
  obtain ⟨c1, c2⟩ := C55_check m cfg
  unfold initializeChecks
  by_cases hmix : (m = .inactive ↔ cfg.visc = .inviscid)
  · rw [c1.2 hmix]
    simp only [bind, Except.bind]
    unfold setBoundaryConditions
    cases hp : meshPeriodic <;> cases hh : C.hasCondition .periodic <;> simp [hmix]
  · have := c2 (fun hh => hmix (c1.1 hh))
    rw [this]
    simp only [bind, Except.bind]
    refine ⟨by simp [hmix], by simp, fun _ hh => absurd hh hmix⟩

/-- **C53** Initialisation is accepted exactly if the mixed method fits the viscosity (inactive
for inviscid fluids, another one for viscous fluids) and, for a mesh with periodic
identifications, some region of the mesh was given a periodic condition in the history of
assignments; otherwise it raises `TypeError` for the former and `ValueError` for the latter. -/
theorem C53_initialize (m : MixedMethod) (cfg : FlowCfg) (meshPeriodic : Bool)
    (mesh : List Name) (opts : Dict Name CondClass) (h : List (Pattern × Cond))
    (names : List (List Name)) (hl : names.length = h.length)
    (hn : ∀ e ∈ names.zip h, Names e.1 e.2.1 ∧ e.1.Nodup) :
    ∃ C, assignAll (Conditions.init mesh opts) h = .ok C ∧
      (initializeChecks m cfg meshPeriodic C = .ok () ↔
        (m = .inactive ↔ cfg.visc = .inviscid) ∧
        (meshPeriodic = true → ∃ r ∈ mesh, ∃ c ∈ assigned (names.zip (h.map Prod.snd)) r,
          c.cls = .periodic)) ∧
      (¬ (m = .inactive ↔ cfg.visc = .inviscid) →
        initializeChecks m cfg meshPeriodic C = .error .typeError) ∧
      (initializeChecks m cfg meshPeriodic C ≠ .ok () →
        (m = .inactive ↔ cfg.visc = .inviscid) →
        initializeChecks m cfg meshPeriodic C = .error .valueError) := by
  obtain ⟨C, h1, h2, h3⟩ := C36_history_partial mesh opts h names hl hn
  exact ⟨C, h1, checks_of_listed m cfg meshPeriodic mesh opts C _ h2 h3⟩

/-- **C53** The same after every history of assignments, by object or by name, accepted or refused,
with repeated regions and with conditions removed in between: what counts is what the regions list in
the end. -/
theorem C53_histories (m : MixedMethod) (cfg : FlowCfg) (meshPeriodic : Bool)
    (mesh : List Name) (opts : Dict Name CondClass) (h : List Request) :
    let C := h.foldl Conditions.perform (Conditions.init mesh opts)
    (initializeChecks m cfg meshPeriodic C = .ok () ↔
      (m = .inactive ↔ cfg.visc = .inviscid) ∧
      (meshPeriodic = true → ∃ r ∈ mesh, ∃ c ∈ listed opts r 0 [] h, c.cls = .periodic)) ∧
    (¬ (m = .inactive ↔ cfg.visc = .inviscid) →
      initializeChecks m cfg meshPeriodic C = .error .typeError) ∧
    (initializeChecks m cfg meshPeriodic C ≠ .ok () →
      (m = .inactive ↔ cfg.visc = .inviscid) →
      initializeChecks m cfg meshPeriodic C = .error .valueError) := by
  obtain ⟨h2, h3⟩ := C36_histories mesh opts h
  exact checks_of_listed m cfg meshPeriodic mesh opts _ _ h2 h3

example : ∃ r ∈ ["left".toList, "right".toList],
    ∃ c ∈ listed [("periodic".toList, .periodic)] r 0 []
      [.assign ["left".toList, "right".toList] (.str "periodic".toList), .clear,
        .assign ["right".toList] (.str "periodic".toList)], c.cls = .periodic :=
  ⟨"right".toList, by decide, ⟨1, .periodic⟩, by decide, rfl⟩

/-- **C53** The mixed variable of the strain-heat method has room for the symmetric strain
rate and the temperature gradient in two and three dimensions, and not in one. -/
theorem C53_strain_heat_size (dim : ℕ) (hd : 1 ≤ dim) (hd3 : dim ≤ 3) :
    strainHeatDim dim = (dim * (dim + 1) / 2 + dim : ℕ) ↔ dim ≠ 1 := by
  interval_cases dim <;> simp [strainHeatDim]

/-- Non-vacuity of `C53_initialize`: a periodic pair and a farfield. -/
example : ∃ (h : List (Pattern × Cond)) (names : List (List Name)), names.length = h.length ∧
    (∀ e ∈ names.zip h, Names e.1 e.2.1 ∧ e.1.Nodup) ∧
    ∃ r ∈ ["a".toList, "b".toList], ∃ c ∈ assigned (names.zip (h.map Prod.snd)) r,
      c.cls = .periodic := by
  refine ⟨[(.seq ["a".toList], ⟨0, .farfield⟩), (.seq ["b".toList], ⟨1, .periodic⟩)],
    [["a".toList], ["b".toList]], rfl, ?_, "b".toList, by simp, ⟨1, .periodic⟩, by decide, rfl⟩
  intro e he
  simp at he
  rcases he with rfl | rfl
  · exact ⟨.inl rfl, by simp⟩
  · exact ⟨.inl rfl, by simp⟩

end Dream
