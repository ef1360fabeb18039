import Verif.Lemmas.Output
import Verif.Lemmas.Dict
import Verif.Spec.Output
import Verif.Props.Timer

/-!
# C08, C09, C10, C12, C59: output of the solution routines
-/

namespace Dream

open Run

/-! ## C08: the schedule -/

section helpers

theorem flatMap_ite {α β} (l : List α) (p : α → Prop) [DecidablePred p] (f : α → β) :
    (l.flatMap fun a => if p a then [f a] else []) = (l.filter fun a => p a).map f := by
  induction l with
  | nil => rfl
  | cons a l ih =>
    by_cases h : p a <;> simp [h, ih]

theorem labels_split {ts : List (ℚ × ℚ)} (hne : ts ≠ []) :
    ∃ l t, ts.map Prod.snd = l ++ [t] ∧ ts.length = l.length + 1 ∧
      (ts.map Prod.snd).zipIdx.getLast? = some (t, l.length) := by
  have hm : ts.map Prod.snd ≠ [] := by simpa using hne
  refine ⟨(ts.map Prod.snd).dropLast, (ts.map Prod.snd).getLast hm,
    (List.dropLast_append_getLast hm).symm, ?_, ?_⟩
  · have : 0 < ts.length := List.length_pos_iff.2 hne
    simp; omega
  · conv_lhs => rw [← List.dropLast_append_getLast hm, List.zipIdx_append]
    simp

/-- The in-time records plus the final one are the schedule. -/
theorem schedule_eq {ρ} (l : List ℚ) (t : ℚ) (r : ℕ) (f : ℚ × ℕ → ρ) :
    ((l ++ [t]).zipIdx.flatMap fun x => if x.2 % r = 0 then [f (x.1, x.2 + 1)] else []) ++
      (if ¬ l.length % r = 0 then [f (t, l.length + 1)] else []) =
    ((Spec.schedule (l ++ [t]) 0 r).tail).map f := by
  rw [List.zipIdx_append]
  simp only [Spec.schedule, List.tail_cons, List.zipIdx_append, List.flatMap_append,
    List.filter_append, List.map_append, List.map_map]
  rw [flatMap_ite _ (fun x : ℚ × ℕ => x.2 % r = 0) fun x => f (x.1, x.2 + 1)]
  have e1 : (l.zipIdx.filter fun x => decide (r ∣ x.2 ∨ x.2 + 1 = (l ++ [t]).length)) =
      l.zipIdx.filter fun x => decide (x.2 % r = 0) := by
    apply List.filter_congr
    intro x hx
    have h1 : x.2 < l.length := by
      have := List.snd_lt_of_mem_zipIdx hx
      simpa using this
    have h2 : ¬ x.2 + 1 = (l ++ [t]).length := by simp; omega
    simp only [h2, or_false, Nat.dvd_iff_mod_eq_zero]
  rw [e1, List.append_assoc]
  congr 1
  by_cases h : l.length % r = 0 <;> simp [h]

end helpers

/-- **C08** (VTK) In a transient run of at least one step in which nothing raises, the
VTK stream writes exactly the schedule: the initial state, then the state after every
step that is due or the last, each with the label of its step. -/
theorem C08_vtk (data : List SKind) (reassemble : Bool) (tm : Timer) (rate : ℕ)
    (ts : List (ℚ × ℚ)) (hr : tm.run false 1 = .ok ts) (hne : ts ≠ []) (hd : data.Nodup)
    (hs : .ngsmesh ∉ data ∧ .settings ∉ data) (hv : .vtk ∈ data) :
    (transientRoutine quiet data reassemble tm).result = .ok () ∧
    records (vtkHooks rate) .vtk 0 (transientRoutine quiet data reassemble tm).trace =
      Spec.schedule (ts.map Prod.snd) tm.t rate := by
  obtain ⟨l, t, e, elen, hl⟩ := labels_split hne
  have hs' : data.filter SKind.isSingle = [] := by
    rw [List.filter_eq_nil_iff]
    intro a ha
    cases a <;> simp [SKind.isSingle] <;> first | exact absurd ha hs.1 | exact absurd ha hs.2
  refine ⟨by rw [transient_quiet data reassemble tm ts hr hs' t _ hl], ?_⟩
  rw [transient_records (vtkHooks rate) .vtk data reassemble tm ts hr hd hs' hv rfl t _ hl]
  have := schedule_eq l t rate id
  simp only [vtkHooks]
  rw [List.append_assoc, e, elen]
  simp only [id] at this
  rw [this, List.map_id]
  rfl

/-- **C08** (sensors) The same for the rows of a sensor with its own rate. -/
theorem C08_sensor (data : List SKind) (reassemble : Bool) (tm : Timer) (rate : ℕ)
    (ts : List (ℚ × ℚ)) (hr : tm.run false 1 = .ok ts) (hne : ts ≠ []) (hd : data.Nodup)
    (hs : .ngsmesh ∉ data ∧ .settings ∉ data) (hv : .sensor ∈ data) :
    (transientRoutine quiet data reassemble tm).result = .ok () ∧
    records (sensorHooks rate) .sensor 0 (transientRoutine quiet data reassemble tm).trace =
      (Spec.schedule (ts.map Prod.snd) tm.t rate).map fun x => (some x.1, x.2) := by
  obtain ⟨l, t, e, elen, hl⟩ := labels_split hne
  have hs' : data.filter SKind.isSingle = [] := by
    rw [List.filter_eq_nil_iff]
    intro a ha
    cases a <;> simp [SKind.isSingle] <;> first | exact absurd ha hs.1 | exact absurd ha hs.2
  refine ⟨by rw [transient_quiet data reassemble tm ts hr hs' t _ hl], ?_⟩
  rw [transient_records (sensorHooks rate) .sensor data reassemble tm ts hr hd hs' hv rfl t _ hl]
  have := schedule_eq l t rate fun x => (some x.1, x.2)
  simp only [sensorHooks]
  rw [List.append_assoc, e, elen, this]
  rfl

/-- The writes of the gridfunction stream in the undisturbed run (helper). -/
theorem gfu_writes {V} (data : List SKind) (reassemble : Bool) (tm : Timer) (rate tlRate : ℕ)
    (levels : List (String × String)) (gfu : ℕ → V) (lev : ℕ → String → String → V)
    (ts : List (ℚ × ℚ)) (hr : tm.run false 1 = .ok ts) (hd : data.Nodup)
    (hs : .ngsmesh ∉ data ∧ .settings ∉ data) (hv : .gfu ∈ data) (l : List ℚ) (t : ℚ)
    (e : ts.map Prod.snd = l ++ [t]) (elen : ts.length = l.length + 1)
    (hl : (ts.map Prod.snd).zipIdx.getLast? = some (t, l.length)) :
    records (gfuHooks rate tlRate levels gfu lev) .gfu 0
        (transientRoutine quiet data reassemble tm).trace =
      gfuSave rate tlRate levels gfu lev (some tm.t) 0 0 ++
      ((l ++ [t]).zipIdx.flatMap fun x =>
        gfuSave rate tlRate levels gfu lev (some x.1) x.2 (x.2 + 1)) ++
      (if ¬ l.length % rate = 0 then
        gfuSave rate tlRate levels gfu lev (some t) 0 (l.length + 1) else []) := by
  have hs' : data.filter SKind.isSingle = [] := by
    rw [List.filter_eq_nil_iff]
    intro a ha
    cases a <;> simp [SKind.isSingle] <;> first | exact absurd ha hs.1 | exact absurd ha hs.2
  rw [transient_records _ .gfu data reassemble tm ts hr hd hs' hv rfl t _ hl]
  simp only [gfuHooks]
  rw [e, elen]
  simp

/-- Whether a write concerns a state file. -/
def isStateWrite {V} (w : GFile × V) : Bool :=
  match w.1 with
  | .state _ => true
  | .level _ _ _ => false

theorem gfuSave_states {V} (rate tlRate : ℕ) (levels : List (String × String)) (gfu : ℕ → V)
    (lev : ℕ → String → String → V) (t : ℚ) (it n : ℕ) :
    (gfuSave rate tlRate levels gfu lev (some t) it n).filter isStateWrite =
      if it % rate = 0 then [(GFile.state (some t), gfu n)] else [] := by
  unfold gfuSave
  rw [List.filter_append]
  have : ((if it % tlRate = 0 then
      levels.map fun fl => (GFile.level t fl.1 fl.2, lev n fl.1 fl.2) else []).filter isStateWrite)
      = [] := by
    rw [List.filter_eq_nil_iff]
    intro a ha
    split_ifs at ha
    · simp at ha; obtain ⟨_, _, _, rfl⟩ := ha; simp [isStateWrite]
    · simp at ha
  dsimp only
  rw [this, List.nil_append]
  split_ifs <;> simp [isStateWrite]

/-- **C08** (gridfunctions) The state files written by the gridfunction stream are the
schedule, each holding the solution at its step. -/
theorem C08_gridfunction {V} (data : List SKind) (reassemble : Bool) (tm : Timer)
    (rate tlRate : ℕ) (levels : List (String × String)) (gfu : ℕ → V)
    (lev : ℕ → String → String → V)
    (ts : List (ℚ × ℚ)) (hr : tm.run false 1 = .ok ts) (hne : ts ≠ []) (hd : data.Nodup)
    (hs : .ngsmesh ∉ data ∧ .settings ∉ data) (hv : .gfu ∈ data) :
    (records (gfuHooks rate tlRate levels gfu lev) .gfu 0
        (transientRoutine quiet data reassemble tm).trace).filter isStateWrite =
      (Spec.schedule (ts.map Prod.snd) tm.t rate).map
        fun x => (GFile.state (some x.1), gfu x.2) := by
  obtain ⟨l, t, e, elen, hl⟩ := labels_split hne
  rw [gfu_writes data reassemble tm rate tlRate levels gfu lev ts hr hd hs hv l t e elen hl]
  rw [List.filter_append, List.filter_append, gfuSave_states, List.filter_flatMap]
  have := schedule_eq l t rate fun x => (GFile.state (some x.1), gfu x.2)
  simp only [gfuSave_states]
  rw [List.append_assoc, e]
  have e2 : List.filter isStateWrite (if ¬ l.length % rate = 0 then
      gfuSave rate tlRate levels gfu lev (some t) 0 (l.length + 1) else []) =
      if ¬ l.length % rate = 0 then [(GFile.state (some t), gfu (l.length + 1))] else [] := by
    split_ifs with h
    · rfl
    · rw [gfuSave_states]; simp
  rw [e2, this]
  simp [Spec.schedule]

/-- **C08** What the schedule says: states are written in increasing order, none twice;
the first is the initial and the last is the final state; and the state after step `it`
is written exactly if `it` is a multiple of the rate or the last step, under the label
of that step. -/
theorem C08_schedule (labels : List ℚ) (t0 : ℚ) (r : ℕ) (hne : labels ≠ []) :
    ((Spec.schedule labels t0 r).map Prod.snd).Pairwise (· < ·) ∧
    (Spec.schedule labels t0 r).head? = some (t0, 0) ∧
    ((Spec.schedule labels t0 r).map Prod.snd).getLast? = some labels.length ∧
    ∀ it (h : it < labels.length) t, (t, it + 1) ∈ Spec.schedule labels t0 r ↔
      t = labels[it] ∧ (r ∣ it ∨ it + 1 = labels.length) := by
  have hpos : 0 < labels.length := List.length_pos_iff.2 hne
  have hmem : ∀ it (h : it < labels.length) t, (t, it + 1) ∈ Spec.schedule labels t0 r ↔
      t = labels[it] ∧ (r ∣ it ∨ it + 1 = labels.length) := by
    intro it h t
    simp only [Spec.schedule, List.mem_cons, Prod.mk.injEq, Nat.add_eq_zero_iff, one_ne_zero,
      and_false, false_or, List.mem_map, List.mem_filter, decide_eq_true_eq, Prod.exists]
    constructor
    · rintro ⟨a, b, ⟨hab, hb⟩, rfl, hbe⟩
      have : b = it := by omega
      subst this
      have := List.mem_zipIdx' hab
      exact ⟨this.2, hb⟩
    · rintro ⟨rfl, h2⟩
      refine ⟨_, it, ⟨?_, h2⟩, rfl, rfl⟩
      rw [List.mem_zipIdx_iff_getElem?]
      simp [h]
  refine ⟨?_, rfl, ?_, hmem⟩
  · simp only [Spec.schedule, List.map_cons, List.map_map, List.pairwise_cons]
    constructor
    · intro a ha; simp at ha; omega
    · rw [List.pairwise_map]
      apply List.Pairwise.imp (R := fun a b : ℚ × ℕ => a.2 < b.2) (by intro a b h; simpa using h)
      apply List.Pairwise.filter
      have : (labels.zipIdx.map Prod.snd).Pairwise (· < ·) := by
        rw [List.zipIdx_map_snd]
        simpa [List.range_eq_range'] using List.pairwise_lt_range (n := labels.length)
      rwa [List.pairwise_map] at this
  · obtain ⟨l, t, rfl⟩ := (List.eq_nil_or_concat' labels).resolve_left hne
    simp only [Spec.schedule, List.zipIdx_append, List.filter_append, List.map_append]
    simp only [List.zipIdx_singleton, List.length_append, List.length_singleton, zero_add, or_true,
      List.filter_cons, decide_true, if_true, List.filter_nil, List.map_cons, List.map_nil,
      List.map_append]
    rw [← List.cons_append, List.getLast?_append]
    rfl

/-- The undisturbed pseudo time stepping run (helper). -/
theorem pseudo_quiet (data : List SKind) (reassemble : Bool) (t : ℚ) (n : ℕ)
    (hs' : data.filter SKind.isSingle = []) :
    pseudoRoutine quiet data reassemble t n = ⟨.ok (), headOps reassemble ++
      ((data.filter SKind.isOpened).map Op.open ++
      (((data.filter SKind.isFile).map (fun s => Op.pre s (some t)) ++
        (((List.range n).flatMap fun it => [Op.solve it, .update it, .iteration it, .redraw]) ++
        ([.yield_ 0] ++ ((data.filter SKind.isFile).map (fun s => Op.inStep s t 0) ++
        ([.redraw] ++ (data.filter SKind.isFile).map (fun s => Op.post s (some t) 0)))))) ++
      (data.filter SKind.isFile).map Op.close))⟩ := by
  unfold pseudoRoutine
  rw [head_quiet, withIO_quiet data _ ()]
  rw [hs', ioPre_quiet, Run.ok_bind]
  have hfor := Run.forM_ok (List.range n) (fun it => do
    op quiet (.solve it)
    op quiet (.update it)
    op quiet (.iteration it)
    op quiet .redraw) (fun it => [Op.solve it, .update it, .iteration it, .redraw]) (fun a _ => rfl)
  rw [hfor, Run.ok_bind, Run.op_quiet, Run.ok_bind, ioIn, Run.forM_quiet, Run.ok_bind,
    Run.op_quiet, Run.ok_bind, ioPost, Run.forM_quiet]

/-- **C08** (pseudo time stepping) Exactly the initial and the final state are written,
for every rate and any number of iterations. -/
theorem C08_pseudo (data : List SKind) (reassemble : Bool) (t : ℚ) (n rate : ℕ) (hd : data.Nodup)
    (hs : .ngsmesh ∉ data ∧ .settings ∉ data) (hv : .vtk ∈ data) :
    (pseudoRoutine quiet data reassemble t n).result = .ok () ∧
    records (vtkHooks rate) .vtk 0 (pseudoRoutine quiet data reassemble t n).trace =
      [(t, 0), (t, n)] := by
  have hs' : data.filter SKind.isSingle = [] := by
    rw [List.filter_eq_nil_iff]
    intro a ha
    cases a <;> simp [SKind.isSingle] <;> first | exact absurd ha hs.1 | exact absurd ha hs.2
  set file := data.filter SKind.isFile with hfile
  have hf : file.Nodup := hd.filter _
  have hm : .vtk ∈ file := by simp [hfile, hv, SKind.isFile]
  have key := pseudo_quiet data reassemble t n hs'
  rw [← hfile] at key
  rw [key]
  refine ⟨rfl, ?_⟩
  have u : ∀ a b : List Op, updates (a ++ b) = updates a + updates b := by
    intro a b; simp [updates]
  set h := vtkHooks rate with hh
  have h0 := records_silent h .vtk 0 (headOps reassemble ++ (data.filter SKind.isOpened).map Op.open) (by
    intro o ho
    rcases List.mem_append.1 ho with ho | ho
    · right; right
      unfold headOps at ho; split_ifs at ho <;> simp_all
    · left; simp at ho; obtain ⟨a, _, rfl⟩ := ho; exact ⟨_, rfl⟩)
  have h1 := fun n => records_silent h .vtk n (file.map Op.close) (by
    intro o ho
    right; left; simp at ho; obtain ⟨a, _, rfl⟩ := ho; exact ⟨_, rfl⟩)
  have h2 := records_pre h .vtk 0 _ (some t) hf
  have h3 : ∀ m k, records h .vtk m ((List.range' k n).flatMap fun it =>
        [Op.solve it, .update it, .iteration it, .redraw]) = [] ∧
      updates ((List.range' k n).flatMap fun it =>
        [Op.solve it, .update it, .iteration it, .redraw]) = n := by
    clear key
    induction n with
    | zero => intro m k; simp [records, updates]
    | succ n ih =>
      intro m k
      rw [List.range'_succ, List.flatMap_cons, records_append, u, (ih _ _).1, (ih m _).2]
      refine ⟨by simp [records], by simp [updates]; omega⟩
  have h4 := fun n => records_inStep h .vtk n _ t 0 hf
  have h5 := fun n => records_post h .vtk n _ (some t) 0 hf
  have h6 : ∀ m, records h .vtk m [.yield_ 0] = [] ∧ updates [Op.yield_ 0] = 0 := by
    intro m; simp [records, updates]
  have h7 : ∀ m, records h .vtk m [.redraw] = [] ∧ updates [Op.redraw] = 0 := by
    intro m; simp [records, updates]
  dsimp only
  rw [← List.append_assoc, records_append, h0.1, h0.2, List.nil_append, Nat.zero_add,
    records_append, (h1 _).1, List.append_nil, records_append, h2.1, h2.2, if_pos hm,
    records_append, List.range_eq_range', (h3 _ _).1, (h3 0 _).2, records_append, (h6 _).1, (h6 0).2,
    records_append, (h4 _).1, (h4 0).2, if_pos hm, records_append, (h7 _).1, (h7 0).2, (h5 _).1,
    if_pos hm]
  simp [hh, vtkHooks]

/-- **C08** (interrupted runs) Whatever raises and wherever, the records of every stream
are the first ones of the undisturbed run: nothing is reordered, repeated or skipped. -/
theorem C08_interrupted {ρ} (h : Hooks ρ) (s : SKind) (O : Op → Option Exc) (data : List SKind)
    (reassemble : Bool) (tm : Timer) :
    records h s 0 (transientRoutine O data reassemble tm).trace <+:
      records h s 0 (transientRoutine quiet data reassemble tm).trace := by
  unfold transientRoutine
  rcases e : assembleIf O reassemble with ⟨er | u, tr⟩
  · have : tr = headOps reassemble := by
      unfold assembleIf op at e; unfold headOps
      split_ifs at e ⊢
      · split at e <;> simp_all
      · simp [Run.pure_def] at e
    rw [Run.error_bind, this, (records_silent h s 0 _ _).1]
    · exact List.nil_prefix
    · intro o ho; right; right
      unfold headOps at ho; split_ifs at ho <;> simp_all
  · have : tr = headOps reassemble := by
      unfold assembleIf op at e; unfold headOps
      split_ifs at e ⊢
      · split at e <;> simp_all
      · simp [Run.pure_def] at e; exact e
    rw [head_quiet, Run.ok_bind, this]
    dsimp only
    rw [records_append, records_append]
    refine (List.prefix_append_right_inj _).2 (below_withIO h s O data _ _ ?_ _)
    intro a b
    refine (below_ioPre O a b _).bind fun _ => ?_
    cases tm.run false 1 with
    | error e => exact .refl _
    | ok ts =>
      refine (Run.Below.foldlM (fun (_ : Option (ℚ × ℕ)) (tit : ℚ × ℕ) =>
        (below_transientStep O b tit.2 tit.1).bind fun _ => .refl _) _ _).bind fun last => ?_
      cases last with
      | none => exact .refl _
      | some x => exact Run.Below.forM (fun _ => Run.below_op O _) _

/-- Non-vacuity: a run of ten steps with rate 4 writes steps 0, 4, 8 and 9. -/
example : ∃ tm : Timer, ∃ ts, tm.run false 1 = .ok ts ∧ ts.length = 10 ∧
    (Spec.schedule (ts.map Prod.snd) tm.t 4).map Prod.snd = [0, 1, 5, 9, 10] := by
  refine ⟨⟨0, 1, 1 / 10, 1, 0⟩, _, Timer.run_eq _ _ _ (by norm_num), ?_, ?_⟩ <;> decide +kernel

/-! ## C09: closing -/

/-- Body operations: everything but opening and closing. -/
def isBody (o : Op) : Prop := (∀ s, o ≠ .open s) ∧ ∀ s, o ≠ .close s

theorem ioPre_body (O : Op → Option Exc) (a b t) : Run.All isBody (ioPre O a b t) :=
  (Run.All.forM fun _ _ => Run.All.throw _).bind fun _ =>
    Run.All.forM fun _ _ => Run.All.op O (by simp [isBody])

theorem transientStep_body (O : Op → Option Exc) (file it t) :
    Run.All isBody (transientStep O file it t) :=
  (Run.All.op O (by simp [isBody])).bind fun _ => (Run.All.op O (by simp [isBody])).bind fun _ =>
  (Run.All.op O (by simp [isBody])).bind fun _ =>
  (Run.All.forM fun _ _ => Run.All.op O (by simp [isBody])).bind fun _ =>
  Run.All.op O (by simp [isBody])

/-- Closing every stream when no `close` raises. -/
theorem ioClose_ok (O : Op → Option Exc) (h : ∀ s, O (.close s) = none) (l : List SKind) :
    ioClose O l = ⟨.ok (), l.map Op.close⟩ := by
  have := Run.forM_ok l (fun s => op O (.close s)) (fun s => [.close s]) (fun a _ => by
    unfold op; rw [h a])
  unfold ioClose
  rw [this]
  rw [← List.map_eq_flatMap]

/-- A `with` block after `ops0` closes every file stream (helper). -/
theorem closed_withIO {α} (O : Op → Option Exc) (ho : ∀ s, O (.open s) = none)
    (hc : ∀ s, O (.close s) = none) (data : List SKind) (hd : data.Nodup)
    (body : List SKind → List SKind → Run α) (hb : ∀ a b, Run.All isBody (body a b))
    (ops0 : List Op) (h0 : ∀ o ∈ ops0, isBody o) (s : SKind) (hs : s ∈ data) (hf : s.isFile = true) :
    Spec.ClosedOnceAtEnd (ops0 ++ (withIO O data body).trace) s ∧
    Spec.ClosingIsLast (ops0 ++ (withIO O data body).trace) ∧
    .open s ∈ (withIO O data body).trace := by
  unfold withIO
  rw [ioOpen_ok O data ho]
  simp only [Run.bind]
  rw [ioClose_ok O hc]
  set single := data.filter SKind.isSingle
  have hmem : s ∈ data.filter SKind.isFile := by simp [hs, hf]
  have hnd : (data.filter SKind.isFile).Nodup := hd.filter _
  obtain ⟨l1, l2, e⟩ := List.append_of_mem hmem
  rw [e] at hnd ⊢
  set b := body single (l1 ++ s :: l2)
  have hbody := hb single (l1 ++ s :: l2)
  have nobody : ∀ s' : SKind, Op.close s' ∉ b.trace := fun s' h => (hbody _ h).2 s' rfl
  have nohead : ∀ s' : SKind, Op.close s' ∉ ops0 := fun s' h => (h0 _ h).2 s' rfl
  have n1 : s ∉ l1 := fun h => by
    have := List.nodup_append.1 hnd
    exact this.2.2 s h s (by simp) rfl
  have n2 : s ∉ l2 := by
    have := (List.nodup_append.1 hnd).2.1
    exact (List.nodup_cons.1 this).1
  refine ⟨⟨ops0 ++ ((data.filter SKind.isOpened).map Op.open ++ (b.trace ++ l1.map Op.close)),
    l2.map Op.close, by simp, ?_, ?_, ?_⟩, ⟨ops0 ++ ((data.filter SKind.isOpened).map Op.open ++ b.trace),
      (l1 ++ s :: l2).map Op.close, by simp, ?_, ?_⟩, ?_⟩
  · simp [nohead, nobody, n1]
  · simp [n2]
  · intro o ho; simp at ho; obtain ⟨a, _, rfl⟩ := ho; exact ⟨_, rfl⟩
  · simp [nohead, nobody]
  · intro o ho; simp only [List.mem_map] at ho; obtain ⟨a, _, rfl⟩ := ho; exact ⟨_, rfl⟩
  · apply List.mem_append_left
    simp [hs, SKind.isOpened, hf]

theorem assembleIf_cases (O : Op → Option Exc) (reassemble : Bool) :
    assembleIf O reassemble = ⟨.ok (), headOps reassemble⟩ ∨
      ∃ e, assembleIf O reassemble = ⟨.error e, [.assemble]⟩ := by
  unfold assembleIf op headOps
  split_ifs
  · split
    · left; rfl
    · right; exact ⟨_, rfl⟩
  · left; rfl

theorem headOps_body (reassemble : Bool) : ∀ o ∈ headOps reassemble, isBody o := by
  intro o ho
  unfold headOps at ho
  split_ifs at ho <;> simp_all [isBody]

/-- A routine that assembles and then runs a body in a `with` block (helper). -/
theorem closed_routine (O : Op → Option Exc) (ho : ∀ s, O (.open s) = none)
    (hc : ∀ s, O (.close s) = none) (data : List SKind) (hd : data.Nodup) (reassemble : Bool)
    (body : List SKind → List SKind → Run Unit) (hb : ∀ a b, Run.All isBody (body a b))
    (s : SKind) (hs : s ∈ data) (hf : s.isFile = true) (tr : List Op)
    (htr : tr = (do assembleIf O reassemble; withIO O data body : Run Unit).trace) :
    (tr = [.assemble] ∧ ∃ e, O .assemble = some e) ∨
      (.open s ∈ tr ∧ Spec.ClosedOnceAtEnd tr s ∧ Spec.ClosingIsLast tr) := by
  rcases assembleIf_cases O reassemble with h | ⟨e, h⟩
  · right
    rw [h, Run.ok_bind] at htr
    have := closed_withIO O ho hc data hd body hb (headOps reassemble) (headOps_body _) s hs hf
    rw [htr]
    exact ⟨List.mem_append_right _ this.2.2, this.1, this.2.1⟩
  · left
    rw [h, Run.error_bind] at htr
    refine ⟨htr, ?_⟩
    unfold assembleIf op at h
    split_ifs at h
    · rcases hx : O .assemble with _ | x
      · rw [hx] at h; simp at h
      · exact ⟨x, rfl⟩
    · simp [Run.pure_def] at h

/-- **C09** (transient) Whichever operation raises and wherever the consumer abandons the
generator, if opening and closing themselves do not raise: either the routine stopped
before the streams were opened, or every activated file stream has been opened and is
closed exactly once, after all other operations. -/
theorem C09_transient_partial (O : Op → Option Exc) (ho : ∀ s, O (.open s) = none)
    (hc : ∀ s, O (.close s) = none) (data : List SKind) (hd : data.Nodup) (reassemble : Bool)
    (tm : Timer) (s : SKind) (hs : s ∈ data) (hf : s.isFile = true) :
    let tr := (transientRoutine O data reassemble tm).trace
    (tr = [.assemble] ∧ ∃ e, O .assemble = some e) ∨
      (.open s ∈ tr ∧ Spec.ClosedOnceAtEnd tr s ∧ Spec.ClosingIsLast tr) := by
  intro tr
  have hall : ∀ single file, Run.All isBody (do
    ioPre O single file (some tm.t)
    match tm.run false 1 with
    | .error e => Run.throw (.py e)
    | .ok ts =>
      let last ← (ts.map Prod.snd).zipIdx.foldlM (init := none) fun _ tit => do
        transientStep O file tit.2 tit.1
        return some tit
      match last with
      | none => Run.throw (.py .unboundLocal)
      | some (t, it) => ioPost O file (some t) it) := by
    intro single file
    refine (ioPre_body O single file _).bind fun _ => ?_
    cases tm.run false 1 with
    | error e => exact Run.All.throw _
    | ok ts =>
      refine (Run.All.foldlM (fun (_ : Option (ℚ × ℕ)) (tit : ℚ × ℕ) =>
        (transientStep_body O file tit.2 tit.1).bind fun _ => Run.All.pure _) _ _).bind fun last => ?_
      cases last with
      | none => exact Run.All.throw _
      | some x => exact Run.All.forM fun _ _ => Run.All.op O (by simp [isBody])
  exact closed_routine O ho hc data hd reassemble _ hall s hs hf tr rfl

/-- **C09** (pseudo time stepping) The same. -/
theorem C09_pseudo_partial (O : Op → Option Exc) (ho : ∀ s, O (.open s) = none)
    (hc : ∀ s, O (.close s) = none) (data : List SKind) (hd : data.Nodup) (reassemble : Bool)
    (t : ℚ) (n : ℕ) (s : SKind) (hs : s ∈ data) (hf : s.isFile = true) :
    let tr := (pseudoRoutine O data reassemble t n).trace
    (tr = [.assemble] ∧ ∃ e, O .assemble = some e) ∨
      (.open s ∈ tr ∧ Spec.ClosedOnceAtEnd tr s ∧ Spec.ClosingIsLast tr) := by
  intro tr
  have o : ∀ op0, isBody op0 → Run.All isBody (op O op0) := fun _ h => Run.All.op O h
  have hall : ∀ single file, Run.All isBody (do
    ioPre O single file (some t)
    (List.range n).forM fun it => do
      op O (.solve it)
      op O (.update it)
      op O (.iteration it)
      op O .redraw
    op O (.yield_ 0)
    ioIn O file t 0
    op O .redraw
    ioPost O file (some t) 0) := by
    intro single file
    refine (ioPre_body O single file _).bind fun _ => (Run.All.forM fun _ _ =>
      (o _ (by simp [isBody])).bind fun _ => (o _ (by simp [isBody])).bind fun _ =>
      (o _ (by simp [isBody])).bind fun _ => o _ (by simp [isBody])).bind fun _ =>
      (o _ (by simp [isBody])).bind fun _ =>
      (Run.All.forM fun _ _ => o _ (by simp [isBody])).bind fun _ =>
      (o _ (by simp [isBody])).bind fun _ => Run.All.forM fun _ _ => o _ (by simp [isBody])
  exact closed_routine O ho hc data hd reassemble _ hall s hs hf tr rfl

/-- **C09** (stationary) The same. -/
theorem C09_stationary_partial (O : Op → Option Exc) (ho : ∀ s, O (.open s) = none)
    (hc : ∀ s, O (.close s) = none) (data : List SKind) (hd : data.Nodup) (reassemble : Bool)
    (s : SKind) (hs : s ∈ data) (hf : s.isFile = true) :
    let tr := (stationaryRoutine O data reassemble).trace
    (tr = [.assemble] ∧ ∃ e, O .assemble = some e) ∨
      (.open s ∈ tr ∧ Spec.ClosedOnceAtEnd tr s ∧ Spec.ClosingIsLast tr) := by
  intro tr
  have hall : ∀ single file, Run.All isBody (do
    ioPre O single file none
    let _ : Unit ← Run.throw (.py .attributeError)
    op O (.yield_ 0)
    ioPost O file none 0) := by
    intro single file
    exact (ioPre_body O single file _).bind fun _ => (Run.All.throw _).bind fun _ =>
      (Run.All.op O (by simp [isBody])).bind fun _ =>
      Run.All.forM fun _ _ => Run.All.op O (by simp [isBody])
  exact closed_routine O ho hc data hd reassemble _ hall s hs hf tr rfl

/-- **C09 fails** without the assumption on opening: if a stream cannot be opened, the
streams opened before it are never closed. -/
theorem C09_fails_open (tm : Timer) : ∃ (O : Op → Option Exc) (data : List SKind),
    .open .vtk ∈ (transientRoutine O data true tm).trace ∧
    .close .vtk ∉ (transientRoutine O data true tm).trace := by
  refine ⟨fun o => if o = .open .sensor then some (.py .valueError) else none,
    [.log, .vtk, .sensor], ?_⟩
  have : (transientRoutine (fun o => if o = .open .sensor then some (.py .valueError) else none)
    [.log, .vtk, .sensor] true tm).trace = [.assemble, .open .vtk, .open .sensor] := by
    rfl
  rw [this]
  simp

/-- **C09 fails** without the assumption on closing: if closing a stream raises, the
later streams stay open. -/
theorem C09_fails_close (t : ℚ) (n : ℕ) : ∃ (O : Op → Option Exc) (data : List SKind),
    (∀ s, O (.open s) = none) ∧
    .open .sensor ∈ (pseudoRoutine O data true t n).trace ∧
    .close .sensor ∉ (pseudoRoutine O data true t n).trace := by
  refine ⟨fun o => if o = .close .vtk then some (.py .attributeError) else
    if o = .pre .vtk (some t) then some (.py .runtime) else none, [.log, .vtk, .sensor], by simp, ?_⟩
  have : (pseudoRoutine (fun o => if o = .close .vtk then some (.py .attributeError) else
    if o = .pre .vtk (some t) then some (.py .runtime) else none) [.log, .vtk, .sensor] true t n).trace
      = [.assemble, .open .vtk, .open .sensor, .pre .vtk (some t), .close .vtk] := by
    simp [pseudoRoutine, assembleIf, op, withIO, ioOpen, Run.bind, ioPre, ioClose, Run.bind_def,
      Run.forM_cons', Run.forM_nil', Run.pure_def]
  rw [this]
  simp

/-! ## C12: which sets of streams run -/

/-- **C12** (transient) When no operation raises by itself, the transient routine
completes exactly if at least one step is taken and neither the mesh nor the settings
stream is switched on. -/
theorem C12_transient_partial (data : List SKind) (reassemble : Bool) (tm : Timer)
    (ts : List (ℚ × ℚ)) (hr : tm.run false 1 = .ok ts) :
    (transientRoutine quiet data reassemble tm).result = .ok () ↔
      ts ≠ [] ∧ .ngsmesh ∉ data ∧ .settings ∉ data := by
  constructor
  · intro h
    unfold transientRoutine at h
    rw [head_quiet] at h
    unfold withIO at h
    rw [ioOpen_ok quiet data fun _ => rfl] at h
    simp only [Run.bind] at h
    rw [ioClose_ok quiet fun _ => rfl] at h
    rcases hsing : data.filter SKind.isSingle with _ | ⟨a, l⟩
    · have hn := List.filter_eq_nil_iff.1 hsing
      refine ⟨?_, fun hm => hn _ hm rfl, fun hm => hn _ hm rfl⟩
      rintro rfl
      rw [hsing, ioPre_quiet, Run.ok_bind, hr] at h
      simp [Except.bind, Run.pure_def, Run.ok_bind, Run.throw] at h
    · rw [hsing, ioPre_single, Run.error_bind] at h
      simp [Except.bind] at h
  · rintro ⟨hne, h1, h2⟩
    have hs' : data.filter SKind.isSingle = [] := by
      rw [List.filter_eq_nil_iff]
      intro a ha
      cases a <;> simp [SKind.isSingle] <;> first | exact absurd ha h1 | exact absurd ha h2
    obtain ⟨l, t, e, elen, hl⟩ := labels_split hne
    rw [transient_quiet data reassemble tm ts hr hs' t _ hl]

/-- **C12 fails** for the mesh and the settings stream: with either of them switched on
every routine raises `TypeError` before the first step, whatever else is switched on. -/
theorem C12_fails_single (O : Op → Option Exc) (ho : ∀ s, O (.open s) = none)
    (hc : ∀ s, O (.close s) = none) (data : List SKind) (tm : Timer) (t : ℚ) (n : ℕ)
    (h : .ngsmesh ∈ data ∨ .settings ∈ data) :
    (transientRoutine O data false tm).result = .error (.py .typeError) ∧
    (pseudoRoutine O data false t n).result = .error (.py .typeError) ∧
    (stationaryRoutine O data false).result = .error (.py .typeError) := by
  rcases hsing : data.filter SKind.isSingle with _ | ⟨a, l⟩
  · have hn := List.filter_eq_nil_iff.1 hsing
    rcases h with h | h
    · exact absurd rfl (hn _ h)
    · exact absurd rfl (hn _ h)
  · have hw : ∀ (body : List SKind → List SKind → Run Unit), (∀ file, (body (a :: l) file).result =
        .error (.py .typeError)) → (withIO O data body).result = .error (.py .typeError) := by
      intro body hb
      unfold withIO
      rw [ioOpen_ok O data ho]
      simp only [Run.bind]
      rw [ioClose_ok O hc, hsing, hb]
      rfl
    have hd : ∀ r : Run Unit, (do assembleIf O false; r : Run Unit) = r := by
      intro r
      show (pure () : Run Unit) >>= (fun _ => r) = r
      rw [pure_bind]
    refine ⟨?_, ?_, ?_⟩
    · unfold transientRoutine
      rw [hd]
      exact hw _ fun file => by rw [ioPre_single, Run.error_bind]
    · unfold pseudoRoutine
      rw [hd]
      exact hw _ fun file => by rw [ioPre_single, Run.error_bind]
    · unfold stationaryRoutine
      rw [hd]
      exact hw _ fun file => by rw [ioPre_single, Run.error_bind]

/-- **C12 fails** for the stationary routine also without these two streams: it raises `AttributeError`,
and what the VTK stream has got until then is the initial state, with the time -1. -/
theorem C12_fails_stationary_vtk (data : List SKind) (reassemble : Bool) (rate : ℕ) (hd : data.Nodup)
    (hs : .ngsmesh ∉ data ∧ .settings ∉ data) (hv : .vtk ∈ data) :
    (stationaryRoutine quiet data reassemble).result = .error (.py .attributeError) ∧
    records (vtkHooks rate) .vtk 0 (stationaryRoutine quiet data reassemble).trace = [(-1, 0)] := by
  have hs' : data.filter SKind.isSingle = [] := by
    rw [List.filter_eq_nil_iff]
    intro a ha
    cases a <;> simp [SKind.isSingle] <;> first | exact absurd ha hs.1 | exact absurd ha hs.2
  have hf : (data.filter SKind.isFile).Nodup := hd.filter _
  have hm : .vtk ∈ data.filter SKind.isFile := by simp [hv, SKind.isFile]
  have key : stationaryRoutine quiet data reassemble = ⟨.error (.py .attributeError), headOps reassemble ++
      ((data.filter SKind.isOpened).map Op.open ++
      ((data.filter SKind.isFile).map (fun s => Op.pre s none) ++
      (data.filter SKind.isFile).map Op.close))⟩ := by
    unfold stationaryRoutine withIO
    rw [head_quiet, ioOpen_ok quiet data fun _ => rfl]
    simp only [Run.bind, hs', ioPre_quiet, ioClose_ok quiet (fun _ => rfl)]
    simp [bind, Run.bind, Run.throw, Except.bind]
  rw [key]
  refine ⟨rfl, ?_⟩
  have h0 := records_silent (vtkHooks rate) .vtk 0 (headOps reassemble ++ (data.filter SKind.isOpened).map Op.open) (by
    intro o ho
    rcases List.mem_append.1 ho with ho | ho
    · right; right
      unfold headOps at ho; split_ifs at ho <;> simp_all
    · left; simp at ho; obtain ⟨a, _, rfl⟩ := ho; exact ⟨_, rfl⟩)
  have h1 := fun n => records_silent (vtkHooks rate) .vtk n ((data.filter SKind.isFile).map Op.close) (by
    intro o ho
    right; left; simp at ho; obtain ⟨a, _, rfl⟩ := ho; exact ⟨_, rfl⟩)
  have h2 := records_pre (vtkHooks rate) .vtk 0 _ none hf
  dsimp only
  rw [← List.append_assoc, records_append, h0.1, h0.2, List.nil_append, records_append, h2.1, if_pos hm,
    (h1 _).1, List.append_nil]
  rfl

example : [SKind.vtk, .sensor].Nodup ∧ (SKind.ngsmesh ∉ [SKind.vtk, .sensor] ∧
    SKind.settings ∉ [SKind.vtk, .sensor]) ∧ SKind.vtk ∈ [SKind.vtk, .sensor] := by decide

/-- **C12 fails** for the stationary routine: it completes for no set of streams. -/
theorem C12_fails_stationary (O : Op → Option Exc) (data : List SKind) (reassemble : Bool) :
    (stationaryRoutine O data reassemble).result ≠ .ok () := by
  unfold stationaryRoutine
  have : ∀ (single file : List SKind) , ∃ e, (do
    ioPre O single file none
    let _ : Unit ← Run.throw (.py .attributeError)
    op O (.yield_ 0)
    ioPost O file none 0 : Run Unit).result = .error e := by
    intro single file
    rcases ioPre O single file none with ⟨e | u, tr⟩
    · exact ⟨e, rfl⟩
    · exact ⟨_, rfl⟩
  rcases assembleIf O reassemble with ⟨e | u, tr⟩
  · rw [Run.error_bind]; simp
  · rw [Run.ok_bind]
    unfold withIO
    rcases ioOpen O data with ⟨e | sf, tr'⟩
    · simp [Run.bind]
    · obtain ⟨e, he⟩ := this sf.1 sf.2
      simp only [Run.bind]
      rw [he]
      cases (ioClose O sf.2).result <;> simp [Except.bind]

/-- **C12** (pseudo time stepping) Without the mesh and the settings stream the routine
completes for every set of streams. -/
theorem C12_pseudo_partial (data : List SKind) (reassemble : Bool) (t : ℚ) (n : ℕ)
    (hs : .ngsmesh ∉ data ∧ .settings ∉ data) :
    (pseudoRoutine quiet data reassemble t n).result = .ok () := by
  have hs' : data.filter SKind.isSingle = [] := by
    rw [List.filter_eq_nil_iff]
    intro a ha
    cases a <;> simp [SKind.isSingle] <;> first | exact absurd ha hs.1 | exact absurd ha hs.2
  rw [pseudo_quiet data reassemble t n hs']

end Dream
