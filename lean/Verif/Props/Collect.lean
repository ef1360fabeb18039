import Verif.Model.Collect
import Verif.Lemmas.Dict
import Verif.Props.Output

/-!
# C92: everything registered for output is written, and nothing else
-/

namespace Dream

namespace Probes

/-- The sensors of one kind. -/
def ofKind (d : Probes) (k : ProbeKind) : Dict String ℕ := (Dict.get? d k).getD []

theorem ofKind_assign (d : Probes) (k k' : ProbeKind) (a : ProbeArg) (i : ℕ) :
    (d.assign k a i).ofKind k' =
      if k = k' then match a with
        | .str s => Dict.set (d.ofKind k') s i
        | .other => d.ofKind k'
      else d.ofKind k' := by
  have h1 : ∀ k'', ofKind (if Dict.has d k then d else Dict.set d k []) k'' = d.ofKind k'' := by
    intro k''
    by_cases h : Dict.has d k
    · rw [if_pos h]
    · rw [if_neg h, ofKind, Dict.get?_set]
      split_ifs with e
      · subst e
        rw [Dict.has_iff, ← Dict.get?_eq_none] at h
        simp [ofKind, h]
      · rfl
  unfold assign
  cases a with
  | other =>
    simp only [newProbe]
    rw [h1]
    simp
  | str s =>
    simp only [newProbe]
    rw [ofKind, Dict.get?_set]
    by_cases e : k = k'
    · subst e
      rw [if_pos rfl, if_pos rfl]
      have := h1 k
      simp only [ofKind] at this
      simp only [Option.getD_some, this, ofKind]
    · rw [if_neg (Ne.symm e), if_neg e]
      exact h1 k'

theorem ofKind_init (k : ProbeKind) : Probes.init.ofKind k = [] := by
  cases k <;> rfl

theorem run_append (hist : List (ProbeKind × ProbeArg)) (x : ProbeKind × ProbeArg) :
    run (hist ++ [x]) = (run hist).assign x.1 x.2 hist.length := by
  simp [run, List.zipIdx_append, List.foldl_append]

theorem run_spec (hist : List (ProbeKind × ProbeArg)) (k : ProbeKind) :
    ((run hist).ofKind k).keys.Nodup ∧ ∀ s i, Dict.get? ((run hist).ofKind k) s = some i ↔
      hist[i]? = some (k, .str s) ∧ ∀ j, i < j → hist[j]? ≠ some (k, .str s) := by
  induction hist using List.reverseRecOn with
  | nil =>
    rw [show run [] = Probes.init from rfl, ofKind_init]
    simp [Dict.keys, Dict.get?]
  | append_singleton hist x ih =>
    obtain ⟨ih1, ih2⟩ := ih
    rw [run_append, ofKind_assign]
    have hget : ∀ j : ℕ, (hist ++ [x])[j]? =
        if j < hist.length then hist[j]? else if j = hist.length then some x else none := by
      intro j
      by_cases h : j < hist.length
      · rw [if_pos h, List.getElem?_append_left h]
      · rw [if_neg h]
        by_cases h' : j = hist.length
        · subst h'; simp
        · rw [if_neg h', List.getElem?_eq_none]
          simp; omega
    have hlt : ∀ {j y}, hist[j]? = some y → j < hist.length := fun {j y} h =>
      (List.getElem?_eq_some_iff.1 h).1
    -- histories in which the last assignment concerns something else
    have hother : ∀ s, x ≠ (k, ProbeArg.str s) → ∀ i : ℕ,
        ((hist[i]? = some (k, ProbeArg.str s) ∧ ∀ j : ℕ, i < j → hist[j]? ≠ some (k, ProbeArg.str s)) ↔
        ((hist ++ [x])[i]? = some (k, ProbeArg.str s) ∧
          ∀ j : ℕ, i < j → (hist ++ [x])[j]? ≠ some (k, ProbeArg.str s))) := by
      intro s hx i
      have e : ∀ j : ℕ, (hist ++ [x])[j]? = some (k, ProbeArg.str s) ↔ hist[j]? = some (k, ProbeArg.str s) := by
        intro j
        rw [hget]
        constructor
        · intro h
          split_ifs at h with h1 h2
          · exact h
          · exact absurd (Option.some.inj h) hx
        · intro h
          rw [if_pos (hlt h)]; exact h
      constructor
      · rintro ⟨a, b⟩; exact ⟨(e i).2 a, fun j hj h => b j hj ((e j).1 h)⟩
      · rintro ⟨a, b⟩; exact ⟨(e i).1 a, fun j hj h => b j hj ((e j).2 h)⟩
    obtain ⟨k', a⟩ := x
    dsimp only at *
    by_cases hk : k' = k
    swap
    · rw [if_neg hk]
      refine ⟨ih1, fun s i => (ih2 s i).trans (hother s ?_ i)⟩
      intro h; exact hk (congrArg Prod.fst h)
    subst hk
    rw [if_pos rfl]
    cases a with
    | other =>
      refine ⟨ih1, fun s i => (ih2 s i).trans (hother s ?_ i)⟩
      intro h; cases congrArg Prod.snd h
    | str s0 =>
      refine ⟨Dict.nodup_set ih1 _ _, fun s i => ?_⟩
      dsimp only
      rw [Dict.get?_set]
      by_cases hs : s = s0
      · subst hs
        rw [if_pos rfl]
        constructor
        · intro h
          obtain rfl := Option.some.inj h
          refine ⟨by simp, fun j hj => ?_⟩
          rw [hget, if_neg (by omega), if_neg (by omega)]
          simp
        · rintro ⟨h1, h2⟩
          by_contra hne
          have hi : i < hist.length := by
            rw [hget] at h1
            split_ifs at h1 with a b
            · exact a
            · exact absurd (congrArg some b.symm) hne
          exact h2 hist.length hi (by simp)
      · rw [if_neg hs]
        refine (ih2 s i).trans (hother s ?_ i)
        intro h
        exact hs (ProbeArg.str.inj (congrArg Prod.snd h)).symm

end Probes

/-- **C92** After any history of assignments to the sensor stream a run uses exactly one sensor for
each kind and name that was assigned: the one created by the last of these assignments. Assigning
anything but a string adds nothing. -/
theorem C92_sensors (hist : List (ProbeKind × ProbeArg)) :
    (∀ k s i, (k, s, i) ∈ (Probes.run hist).sensors ↔
      hist[i]? = some (k, .str s) ∧ ∀ j, i < j → hist[j]? ≠ some (k, .str s)) ∧
    ((Probes.run hist).sensors.map fun x => (x.1, x.2.1)).Nodup := by
  constructor
  · intro k s i
    have hk : k ∈ probeKinds := by cases k <;> simp [probeKinds]
    rw [← (Probes.run_spec hist k).2 s i]
    simp only [Probes.sensors, List.mem_flatMap, List.mem_map, Prod.mk.injEq]
    constructor
    · rintro ⟨k', -, x, hx, rfl, rfl, rfl⟩
      exact Dict.get?_of_mem (Probes.run_spec hist k').1 hx
    · intro h
      exact ⟨k, hk, (s, i), Dict.mem_of_get? h, rfl, rfl, rfl⟩
  · simp only [Probes.sensors, List.map_flatMap, List.map_map]
    rw [List.nodup_flatMap]
    refine ⟨fun k _ => ?_, ?_⟩
    · have := (Probes.run_spec hist k).1
      have e : (List.map ((fun x : ProbeKind × String × ℕ => (x.1, x.2.1)) ∘ fun x : String × ℕ => (k, x.1, x.2))
          ((Dict.get? (Probes.run hist) k).getD [])) = ((Probes.run hist).ofKind k).keys.map fun s => (k, s) := by
        simp [Probes.ofKind, Dict.keys, Function.comp_def]
      rw [e]
      exact this.map fun a b h => (Prod.mk.inj h).2
    · have hn : probeKinds.Nodup := by decide
      refine hn.imp fun {a b} hab => ?_
      intro x hx hy
      simp only [List.mem_map, Function.comp_apply] at hx hy
      obtain ⟨_, _, rfl⟩ := hx
      obtain ⟨_, _, h⟩ := hy
      exact hab (Prod.mk.inj h).1.symm

/-- C92, concrete instance: a point sensor is assigned twice, a boundary sensor under the same name,
and something that is not a string. -/
example : (Probes.run [(.point, .str "a"), (.boundary, .str "a"), (.point, .other), (.point, .str "b"),
    (.point, .str "a")]).sensors = [(.point, "a", 4), (.point, "b", 3), (.boundary, "a", 1)] := by
  decide

section Vtk
variable {V C S Mat E : Type}

theorem vtkFields_get (cast : V → C) (fields : Dict String V) (hn : fields.keys.Nodup) :
    vtkFields cast (some fields) = fields.map fun kv => (kv.1, cast kv.2) := by
  suffices key : ∀ (l : Dict String V) (d : Dict String C), (d.keys ++ l.keys).Nodup →
      l.foldl (fun d kv => Dict.set d kv.1 (cast kv.2)) d = d ++ l.map fun kv => (kv.1, cast kv.2) by
    exact key fields [] (by simpa [Dict.keys] using hn)
  intro l
  induction l with
  | nil => intro d _; simp
  | cons a l ih =>
    intro d hd
    have ha : ¬ Dict.has d a.1 := by
      rw [Dict.has_iff]
      intro h
      rw [List.nodup_append] at hd
      exact hd.2.2 _ h _ (by simp [Dict.keys]) rfl
    rw [List.foldl_cons, Dict.set, if_neg ha, ih]
    · simp
    · simpa [Dict.keys] using hd

theorem bits_set (l : List ℕ) (b : List Bool) (i : ℕ) (hi : i < b.length) :
    (l.foldl (fun b i => b.set i true) b).getD i false = (b.getD i false || decide (i ∈ l)) := by
  induction l generalizing b with
  | nil => simp
  | cons a l ih =>
    rw [List.foldl_cons, ih _ (by simpa using hi)]
    by_cases h : a = i
    · subst h
      simp [hi]
    · have : ¬ i = a := fun e => h e.symm
      simp [h, this, List.getD, List.getElem?_set]

/-- **C92** The VTK stream refuses to start without fields. Otherwise the file written in a state
holds, for each field under its name, its value in that state on the elements whose material is
selected by the region, on all elements if no region is given; and nothing else. -/
theorem C92_vtk (cast : V → C) (fields : Option (Dict String V)) (hn : (fields.getD []).keys.Nodup)
    (region : Option (Mat → Bool)) (mats : List Mat) (eval : C → S → ℕ → E) :
    ((fields.getD [] = []) → vtkOpen (vtkFields cast fields) region mats = .error .valueError) ∧
    ((fields.getD [] ≠ []) → ∃ w, vtkOpen (vtkFields cast fields) region mats = .ok w ∧
      ∀ (s : S) i name e, (i, name, e) ∈ w.content eval mats.length s ↔
        (∃ m, mats[i]? = some m ∧ ∀ sel, region = some sel → sel m = true) ∧
        ∃ v, (name, v) ∈ fields.getD [] ∧ e = eval (cast v) s i) := by
  have hf : vtkFields cast fields = (fields.getD []).map fun kv => (kv.1, cast kv.2) := by
    cases fields with
    | none => rfl
    | some l => exact vtkFields_get cast l hn
  constructor
  · intro h
    rw [hf, h]; rfl
  · intro h
    rw [hf, vtkOpen, if_neg (by simpa using h)]
    refine ⟨_, rfl, fun s i name e => ?_⟩
    simp only [VtkWriter.content, List.mem_flatMap, List.mem_filter, List.mem_range, List.mem_map,
      Prod.mk.injEq, Dict.keys, List.zip_map', List.map_map, Function.comp_def]
    have hsel : i < mats.length → ((match region.map fun sel =>
        ((List.range mats.length).filter fun i => (mats[i]?.map sel).getD false).foldl
          (fun b i => b.set i true) (List.replicate mats.length false) with
        | none => true
        | some b => b.getD i false) = true ↔
        ∃ m, mats[i]? = some m ∧ ∀ sel, region = some sel → sel m = true) := by
      intro hi
      have hm : mats[i]? = some mats[i] := List.getElem?_eq_getElem hi
      cases region with
      | none =>
        simp [hm]
      | some sel =>
        simp only [Option.map_some]
        rw [bits_set _ _ _ (by simpa using hi)]
        simp [hm, hi, List.getD, List.getElem?_replicate]
    constructor
    · rintro ⟨j, ⟨hj, hd⟩, kv, hkv, rfl, rfl, rfl⟩
      exact ⟨(hsel hj).1 hd, kv.2, hkv, rfl⟩
    · rintro ⟨hm, v, hv, rfl⟩
      have hi : i < mats.length := by
        obtain ⟨m, hm, -⟩ := hm
        exact (List.getElem?_eq_some_iff.1 hm).1
      exact ⟨i, ⟨hi, (hsel hi).2 hm⟩, (name, v), hv, rfl, rfl, rfl⟩

/-- **C92** Over a whole transient run: the files are those of the schedule, each with the values in
the state of its step. -/
theorem C92_vtk_run (data : List SKind) (reassemble : Bool) (tm : Timer) (rate : ℕ)
    (ts : List (ℚ × ℚ)) (hr : tm.run false 1 = .ok ts) (hne : ts ≠ []) (hd : data.Nodup)
    (hs : .ngsmesh ∉ data ∧ .settings ∉ data) (hv : .vtk ∈ data)
    (fields : Dict String C) (h0 : fields ≠ []) (hn : fields.keys.Nodup)
    (region : Option (Mat → Bool)) (mats : List Mat) (eval : C → S → ℕ → E) (state : ℕ → S) :
    ∃ w, vtkOpen (vtkFields id (some fields)) region mats = .ok w ∧
      ∀ t file, (t, file) ∈ (records (vtkHooks rate) .vtk 0 (transientRoutine quiet data reassemble tm).trace).map
          (fun x => (x.1, w.content eval mats.length (state x.2))) →
        ∃ step, (t, step) ∈ Spec.schedule (ts.map Prod.snd) tm.t rate ∧
          ∀ i name e, (i, name, e) ∈ file ↔
            (∃ m, mats[i]? = some m ∧ ∀ sel, region = some sel → sel m = true) ∧
            ∃ c, (name, c) ∈ fields ∧ e = eval c (state step) i := by
  obtain ⟨-, h⟩ := C92_vtk (S := S) (id : C → C) (some fields) hn region mats eval
  obtain ⟨w, hw, hc⟩ := h h0
  refine ⟨w, hw, fun t file hm => ?_⟩
  rw [(C08_vtk data reassemble tm rate ts hr hne hd hs hv).2, List.mem_map] at hm
  obtain ⟨x, hx, e⟩ := hm
  obtain ⟨rfl, rfl⟩ := Prod.mk.inj e
  exact ⟨x.2, hx, fun i name e => hc (state x.2) i name e⟩

/-- C92, concrete instance: two fields on the second and third of three elements. -/
example : ∃ w, vtkOpen (vtkFields id (some [("rho", 1), ("p", 2)])) (some fun m => m == "pml")
      ["air", "pml", "pml"] = .ok w ∧
    w.content (fun c s i => c * 100 + s * 10 + i) 3 7
      = [(1, "rho", 171), (1, "p", 271), (2, "rho", 172), (2, "p", 272)] :=
  ⟨_, rfl, by decide⟩

end Vtk

end Dream
