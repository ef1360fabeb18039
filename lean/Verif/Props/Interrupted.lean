import Verif.Model.Interrupted
import Verif.Props.Session

/-!
# C101: interrupted runs can be resumed
-/

set_option linter.unusedSectionVars false

noncomputable section

namespace Dream

variable {ι X Y : Type}

/-! ## Files -/

theorem get?_erase {κ V} [DecidableEq κ] (d : Dict κ V) (k k' : κ) (h : k' ≠ k) :
    (d.erase k).get? k' = d.get? k' := by
  unfold Dict.erase Dict.get?
  congr 1
  induction d with
  | nil => rfl
  | cons a d ih =>
    rw [List.filter_cons, List.find?_cons]
    by_cases h1 : a.1 = k'
    · rw [if_pos (by simpa [h1] using h), List.find?_cons]
      simp [h1]
    · split
      · rw [List.find?_cons, ih]
      · rw [ih]
        simp [h1]

/-- What a file holds after some writes depends on what was there before only if it is not among
the files written. -/
theorem foldl_set_base {κ V} [DecidableEq κ] (ws : List (κ × V)) (d d' : Dict κ V) (k : κ)
    (h : d.get? k = d'.get? k ∨ k ∈ ws.map Prod.fst) :
    (ws.foldl (fun d w => d.set w.1 w.2) d).get? k
      = (ws.foldl (fun d w => d.set w.1 w.2) d').get? k := by
  induction ws generalizing d d' with
  | nil => simpa using h
  | cons w ws ih =>
    rw [List.foldl_cons, List.foldl_cons]
    apply ih
    by_cases e : k = w.1
    · left; simp [Dict.get?_set, e]
    · rw [Dict.get?_set, Dict.get?_set, if_neg e, if_neg e]
      rcases h with h | h
      · exact .inl h
      · right
        simpa [e] using h

theorem take_zipIdx' {α} (l : List α) (k : ℕ) : l.zipIdx.take k = (l.take k).zipIdx := by
  apply List.ext_getElem?
  intro i
  simp only [List.getElem?_take, List.getElem?_zipIdx]
  split <;> rfl

section
variable [AddCommGroup X] [Module ℝ X] [AddCommGroup Y]

/-! ## The stages of a run -/

theorem stages_path (c : Script ι X Y) (dt : ℝ) (it : ℕ) (ts : List (ℚ × ℚ)) (lab : Option ℚ)
    (prev cur : X) (last : ℚ × RunState ι X)
    (hl : (c.path dt prev cur ts).getLast? = some last) :
    c.stages dt it ts lab (c.at prev cur)
      = ((c.path dt prev cur ts).zipIdx it).map (fun p => c.save p.1.2 p.1.1 p.2)
        ++ [c.savePost last.2 last.1 (it + ts.length - 1)] := by
  induction ts generalizing it prev cur lab with
  | nil => simp [Script.path] at hl
  | cons a ts ih =>
    obtain ⟨t, label⟩ := a
    have hround := round_levelsOf c.P c.s dt c.N t prev cur
    simp only [Script.stages]
    unfold Script.at at *
    rw [hround]
    simp only [Script.path, List.zipIdx_cons, List.map_cons, List.cons_append, Script.at]
    congr 1
    cases ts with
    | nil =>
      simp only [Script.path, List.getLast?_singleton, Option.some.injEq] at hl
      subst hl
      rfl
    | cons b ts =>
      have := ih (it + 1) (some label) cur
        (c.N.solve (c.P.stepEquation (c.s.quotient dt) t cur prev) cur).u (by
          simp only [Script.path, List.getLast?_cons_cons] at hl ⊢
          exact hl)
      rw [this]
      congr 3
      simp only [List.length_cons]
      omega

theorem session_stages (c : Script ι X Y) (tm : Timer) (files : Dict GFile (X ⊕ (ι → ℝ)))
    (prev cur : X) (n : ℕ) (hh : 0 < tm.step) (hstop : tm.stop = tm.start + (n + 1 : ℕ) * tm.step)
    (last : ℚ × RunState ι X) (hl : (c.path tm.step prev cur
      (stepTimes tm.start tm.step tm.digit (n + 1))).getLast? = some last) :
    Session.stages c ⟨tm, c.at prev cur, files⟩ = c.save (c.at prev cur) tm.t 0 ::
      (((c.path tm.step prev cur (stepTimes tm.start tm.step tm.digit (n + 1))).zipIdx).map
        (fun p => c.save p.1.2 p.1.1 p.2) ++ [c.savePost last.2 last.1 n]) := by
  simp only [Session.stages, run_stepTimes tm _ hh hstop]
  rw [stages_path c _ _ _ _ _ _ last hl, stepTimes_length]
  simp

/-- What is in a file that was last written before the process ended. -/
theorem killed_get (c : Script ι X Y) (S : Session ι X) (A B : List (GFile × (X ⊕ (ι → ℝ))))
    (k j m : ℕ) (torn : Option (Option (X ⊕ (ι → ℝ)))) (hk : k < j) (f : GFile)
    (hst : ((S.stages c).take (k + 1)).flatten = A ++ B)
    (hlater : ∀ i > k, ∀ st, (S.stages c)[i]? = some st → ∀ w ∈ st, w.1 ≠ f) :
    (S.killed c j m torn).get? f
      = Dict.get? (B.foldl (fun d w => d.set w.1 w.2)
          (A.foldl (fun d w => d.set w.1 w.2) S.files)) f := by
  have hnow : ∀ w ∈ (S.stages c).getD j [], w.1 ≠ f := by
    intro w hw
    rw [List.getD_eq_getElem?_getD] at hw
    cases h1 : (S.stages c)[j]? with
    | none => rw [h1] at hw; simp at hw
    | some st => rw [h1] at hw; exact hlater j hk st h1 w hw
  have htake : ((S.stages c).take j).flatten = A ++ B ++
      (((S.stages c).drop (k + 1)).take (j - (k + 1))).flatten := by
    rw [← hst, ← List.flatten_append]
    congr 1
    conv_lhs => rw [show j = (k + 1) + (j - (k + 1)) by omega, List.take_add]
  have hd : Dict.get? ((((S.stages c).take j).flatten ++
        ((S.stages c).getD j []).take m).foldl (fun d w => d.set w.1 w.2) S.files) f
      = Dict.get? (B.foldl (fun d w => d.set w.1 w.2)
          (A.foldl (fun d w => d.set w.1 w.2) S.files)) f := by
    rw [htake, List.append_assoc, List.foldl_append, foldl_set_none, List.foldl_append]
    intro w hw
    rcases List.mem_append.1 hw with hw | hw
    · obtain ⟨st, h1, h2⟩ := List.mem_flatten.1 hw
      obtain ⟨i, h3⟩ := List.mem_iff_getElem?.1 (List.mem_of_mem_take h1)
      rw [List.getElem?_drop] at h3
      exact hlater (k + 1 + i) (by omega) st h3 w h2
    · exact hnow w (List.mem_of_mem_take hw)
  unfold Session.killed
  simp only
  cases h1 : ((S.stages c).getD j [])[m]? with
  | none => cases torn <;> exact hd
  | some w =>
    have hw := hnow w (List.mem_of_getElem? h1)
    cases torn with
    | none => exact hd
    | some t =>
      cases t with
      | none => exact (get?_erase _ _ _ hw.symm).trans hd
      | some v => simp only; rw [Dict.get?_set, if_neg hw.symm]; exact hd

/-- The run from the time `ta` over `n + 1` steps, in a process that has just been set up. -/
theorem new_stages (c : Script ι X Y) (ta tb h : ℚ) (files : Dict GFile (X ⊕ (ι → ℝ)))
    (p q : X) (n : ℕ) (hh : 0 < h) (hstop : tb = ta + (n + 1 : ℕ) * h)
    (last : ℚ × RunState ι X) (hl : (c.path h p q
      (stepTimes ta h (setDigit h) (n + 1))).getLast? = some last) :
    Session.stages c ⟨newTimer ta tb h, c.at p q, files⟩ = c.save (c.at p q) 0 0 ::
      (((c.path h p q (stepTimes ta h (setDigit h) (n + 1))).zipIdx).map
        (fun p => c.save p.1.2 p.1.1 p.2) ++ [c.savePost last.2 last.1 n]) :=
  session_stages c (newTimer ta tb h) files p q n hh hstop last hl

theorem path_last (c : Script ι X Y) (ta h : ℚ) (p q : X) (n : ℕ) :
    ∃ last, (c.path h p q (stepTimes ta h (setDigit h) (n + 1))).getLast? = some last := by
  cases hl : (c.path h p q (stepTimes ta h (setDigit h) (n + 1))).getLast? with
  | some last => exact ⟨last, rfl⟩
  | none =>
    rw [List.getLast?_eq_none_iff] at hl
    have := path_length c h p q (stepTimes ta h (setDigit h) (n + 1))
    rw [hl, stepTimes_length] at this
    simp at this

/-- The files of the stages after that of step `i` bear other labels. -/
theorem later_stages (c : Script ι X Y) (ta tb h : ℚ) (files : Dict GFile (X ⊕ (ι → ℝ)))
    (p q : X) (n : ℕ) (hh : 0 < h) (hstop : tb = ta + (n + 1 : ℕ) * h)
    (hnd : ((c.path h p q (stepTimes ta h (setDigit h) (n + 1))).map Prod.fst).Nodup)
    (i : ℕ) (hi : i < n) (a : ℚ × RunState ι X)
    (ha : (c.path h p q (stepTimes ta h (setDigit h) (n + 1)))[i]? = some a)
    (k : ℕ) (hk : i + 1 < k) (st : List (GFile × (X ⊕ (ι → ℝ))))
    (hst : (Session.stages c ⟨newTimer ta tb h, c.at p q, files⟩)[k]? = some st) :
    ∀ w ∈ st, w.1.time ≠ some a.1 := by
  obtain ⟨last, hl⟩ := path_last c ta h p q n
  rw [new_stages c ta tb h files p q n hh hstop last hl] at hst
  obtain ⟨k, rfl⟩ : ∃ l, k = l + 1 := ⟨k - 1, by omega⟩
  rw [List.getElem?_cons_succ] at hst
  set ts := stepTimes ta h (setDigit h) (n + 1) with hts
  have hlen : ts.length = n + 1 := by rw [hts, stepTimes_length]
  have hnd' : (ts.map Prod.snd).Nodup := by rwa [← path_labels c (h : ℝ) p q ts]
  intro w hw
  rw [List.getElem?_append] at hst
  split at hst
  · rename_i hk'
    rw [List.getElem?_map, Option.map_eq_some_iff] at hst
    obtain ⟨⟨b, k'⟩, hb, rfl⟩ := hst
    rw [List.getElem?_zipIdx, Option.map_eq_some_iff] at hb
    obtain ⟨b', hb', e⟩ := hb
    simp only [Prod.mk.injEq] at e
    obtain ⟨rfl, rfl⟩ := e
    rw [save_time c _ _ _ w hw]
    intro e
    have := path_inj c h p q ts hnd' i k a b' ha hb' (Option.some.inj e).symm
    omega
  · have e : st = c.savePost last.2 last.1 n := by
      simpa only [List.mem_singleton] using List.mem_of_getElem? hst
    subst e
    rw [save_time c _ _ _ w (savePost_sub c _ _ _ _ hw)]
    intro e
    have hlast : (c.path h p q ts)[n]? = some last := by
      rw [List.getLast?_eq_getElem?, path_length, hlen] at hl
      exact hl
    have := path_inj c h p q ts hnd' i n a last ha hlast (Option.some.inj e).symm
    omega

/-- The first stages: before the first step, and those of the steps up to `i`. -/
theorem first_stages (c : Script ι X Y) (ta tb h : ℚ) (files : Dict GFile (X ⊕ (ι → ℝ)))
    (p q : X) (n : ℕ) (hh : 0 < h) (hstop : tb = ta + (n + 1 : ℕ) * h) (i : ℕ) (hi : i < n) :
    ((Session.stages c ⟨newTimer ta tb h, c.at p q, files⟩).take (i + 1 + 1)).flatten
      = c.save (c.at p q) 0 0 ++
        (((c.path h p q (stepTimes ta h (setDigit h) (n + 1))).take (i + 1)).zipIdx).flatMap
          fun p => c.save p.1.2 p.1.1 p.2 := by
  obtain ⟨last, hl⟩ := path_last c ta h p q n
  rw [new_stages c ta tb h files p q n hh hstop last hl, List.take_succ_cons, List.flatten_cons,
    List.take_append_of_le_length, ← List.map_take, take_zipIdx']
  · rfl
  · simp [path_length, stepTimes_length]; omega

/-- What a new process finds in the files of a step, if the old one ended at a later stage. -/
theorem killed_step (c : Script ι X Y) (rate tlRate : ℕ) (hc : c.stream = some (rate, tlRate))
    (ta tb h : ℚ) (files : Dict GFile (X ⊕ (ι → ℝ)))
    (p q : X) (n : ℕ) (hh : 0 < h) (hstop : tb = ta + (n + 1 : ℕ) * h)
    (hnd : ((c.path h p q (stepTimes ta h (setDigit h) (n + 1))).map Prod.fst).Nodup)
    (i : ℕ) (hi : i < n) (L : ℚ) (p' q' : X)
    (ha : (c.path h p q (stepTimes ta h (setDigit h) (n + 1)))[i]? = some (L, c.at p' q'))
    (j m : ℕ) (torn : Option (Option (X ⊕ (ι → ℝ)))) (hj : i + 2 ≤ j) :
    (rate ∣ i → (Session.killed c ⟨newTimer ta tb h, c.at p q, files⟩ j m torn).get?
      (.state (some L)) = some (.inl q')) ∧
    (tlRate ∣ i → ∀ l ∈ c.s.levelNames,
      (Session.killed c ⟨newTimer ta tb h, c.at p q, files⟩ j m torn).get? (.level L c.fes l)
        = some (.inr (((c.s.levelsOf (c.P.comp p') (c.P.comp q')).get? l).getD fun _ => 0))) := by
  set ts := stepTimes ta h (setDigit h) (n + 1) with hts
  have hnd' : (ts.map Prod.snd).Nodup := by rwa [← path_labels c (h : ℝ) p q ts]
  have key : ∀ (f : GFile) (v : X ⊕ (ι → ℝ)), f.time = some L →
      (∀ t it w, (f, w) ∈ c.save (c.at p' q') t it → w = v) →
      (f, v) ∈ c.save (c.at p' q') L i →
      (Session.killed c ⟨newTimer ta tb h, c.at p q, files⟩ j m torn).get? f = some v := by
    intro f v hf hu hm
    rw [killed_get c _ _ _ (i + 1) j m torn (by omega) f
      (first_stages c ta tb h files p q n hh hstop i hi)]
    · apply foldl_set_some
      · rw [List.mem_flatMap]
        refine ⟨((L, c.at p' q'), i), ?_, hm⟩
        rw [List.mem_zipIdx_iff_getElem?, List.getElem?_take, if_pos (by simp)]
        exact ha
      · intro w hw
        rw [List.mem_flatMap] at hw
        obtain ⟨⟨b, k⟩, hb, hw⟩ := hw
        rw [List.mem_zipIdx_iff_getElem?, List.getElem?_take] at hb
        split at hb
        · have ht := save_time c _ _ _ _ hw
          simp only [hf, Option.some.injEq] at ht
          have e := path_inj c h p q ts hnd' i k _ b ha hb ht
          subst e
          have := Option.some.inj (ha.symm.trans hb)
          subst this
          exact hu _ _ _ hw
        · cases hb
    · intro k hk st hst w hw e
      exact later_stages c ta tb h files p q n hh hstop hnd i hi _ ha k hk st hst w hw (e ▸ hf)
  refine ⟨fun hr => key _ _ rfl ?_ ?_, fun htl l hlm => key _ _ rfl ?_ ?_⟩
  · intro t it w hw
    exact ((save_state_mem c rate tlRate hc ..).1 hw).2.2
  · exact (save_state_mem c rate tlRate hc ..).2 ⟨rfl, Nat.mod_eq_zero_of_dvd hr, rfl⟩
  · intro t it w hw
    exact ((save_level_mem c rate tlRate hc ..).1 hw).2.2.2
  · refine (save_level_mem c rate tlRate hc ..).2 ⟨rfl, Nat.mod_eq_zero_of_dvd htl, ?_, rfl⟩
    have : (c.at p' q').levels.map Prod.fst = c.s.levelNames := by
      unfold Script.at
      cases c.s <;> rfl
    rw [← this] at hlm
    obtain ⟨kv, hkv, rfl⟩ := List.mem_map.1 hlm
    exact List.mem_map.2 ⟨kv, hkv, rfl⟩

/-- A new process that loads the unknowns and the time levels of a state. -/
theorem load_script (c : Script ι X Y) (hput : ∀ x, c.put (c.P.comp x) x = x)
    (fs : Dict GFile (X ⊕ (ι → ℝ))) (ta tb h : ℚ) (h0 : 0 ≤ ta) (h1 : ta < tb) (x0 p q : X) (L : ℚ)
    (hstate : fs.get? (.state (some L)) = some (.inl q))
    (hlevel : ∀ l ∈ c.s.levelNames, fs.get? (.level L c.fes l)
      = some (.inr (((c.s.levelsOf (c.P.comp p) (c.P.comp q)).get? l).getD fun _ => 0))) :
    Session.script c [.step h, .interval ta tb, .loadState L, .loadLevels L]
      ⟨Timer.default, c.at x0 x0, fs⟩ = .ok ([], ⟨newTimer ta tb h, c.at p q, fs⟩) := by
  apply script_setup c _ _ h h0 h1 _ _ _ (_, _)
  have e1 : Session.exec c ⟨newTimer ta tb h, c.at x0 x0, fs⟩ (.loadState L)
      = .ok ([], ⟨newTimer ta tb h,
        ⟨q, (c.s.levelsOf (c.P.comp x0) (c.P.comp x0)).set "n+1" (c.P.comp q)⟩, fs⟩) := by
    simp only [Session.exec, Session.loadState, hstate]
    rfl
  have e2 : Session.exec c ⟨newTimer ta tb h,
        ⟨q, (c.s.levelsOf (c.P.comp x0) (c.P.comp x0)).set "n+1" (c.P.comp q)⟩, fs⟩
        (.loadLevels L) = .ok ([], ⟨newTimer ta tb h, c.at p q, fs⟩) := by
    simp only [Session.exec, Session.loadLevels]
    rw [loadLevels_at c fs L (c.P.comp p) (c.P.comp q) _ _ _ _ hlevel, hput]
    rfl
  exact script_cons c _ _ _ _ _ [] _ e1 (script_cons c _ _ _ _ _ [] _ e2 rfl)

/-- What makes an interruption one from which the run can be resumed, and resumed without loss:
`labels` are the labels of the steps the interrupted process has to do. The step whose files are
loaded is one of them, but not the last; both rates divide its number, counted from the start of
that process; and the process got past saving it. -/
def Resumable (rate tlRate : ℕ) : List ℚ → List (Crash ι X) → Prop
  | _, [] => True
  | labels, k :: ks => k.step + 1 < labels.length ∧ labels[k.step]? = some k.label ∧
      rate ∣ k.step ∧ tlRate ∣ k.step ∧ k.step + 2 ≤ k.stage ∧
      Resumable rate tlRate (labels.drop (k.step + 1)) ks

/-- How many steps the last process does not have to do. -/
def stepsKept : List (Crash ι X) → ℕ
  | [] => 0
  | k :: ks => k.step + 1 + stepsKept ks

/-- One interruption. -/
theorem resume_one (c : Script ι X Y) (hput : ∀ x, c.put (c.P.comp x) x = x) (rate tlRate : ℕ)
    (hc : c.stream = some (rate, tlRate)) (ta tb h : ℚ) (files : Dict GFile (X ⊕ (ι → ℝ)))
    (p q : X) (n : ℕ) (h0 : 0 ≤ ta) (hh : 0 < h) (hstop : tb = ta + (n + 1 : ℕ) * h)
    (hnd : ((c.path h p q (stepTimes ta h (setDigit h) (n + 1))).map Prod.fst).Nodup)
    (k : Crash ι X) (ks : List (Crash ι X))
    (hk : Resumable rate tlRate ((c.path h p q (stepTimes ta h (setDigit h) (n + 1))).map Prod.fst)
      (k :: ks)) :
    ∃ p' q' n', n = k.step + 1 + n' ∧
      tb = ta + ((k.step : ℚ) + 1) * h + (n' + 1 : ℕ) * h ∧
      (c.path h p q (stepTimes ta h (setDigit h) (n + 1))).drop (k.step + 1)
        = c.path h p' q' (stepTimes (ta + ((k.step : ℚ) + 1) * h) h (setDigit h) (n' + 1)) ∧
      Session.resumed c h tb ta (k :: ks) ⟨newTimer ta tb h, c.at p q, files⟩
        = Session.resumed c h tb (ta + ((k.step : ℚ) + 1) * h) ks
          ⟨newTimer (ta + ((k.step : ℚ) + 1) * h) tb h, c.at p' q',
            Session.killed c ⟨newTimer ta tb h, c.at p q, files⟩ k.stage k.writes k.torn⟩ := by
  obtain ⟨hk1, hk2, hk3, hk4, hk5, -⟩ := hk
  set ts := stepTimes ta h (setDigit h) (n + 1) with hts
  have hlen : ts.length = n + 1 := by rw [hts, stepTimes_length]
  have hi : k.step < n := by simp [path_length, hlen] at hk1; omega
  obtain ⟨n', rfl⟩ : ∃ n', n = k.step + 1 + n' := ⟨n - (k.step + 1), by omega⟩
  obtain ⟨p', q', hpq, hdrop⟩ := path_drop c (h : ℝ) p q ts k.step (by omega)
  have hL : (ts[k.step]'(by omega)).2 = k.label := by
    simpa only [List.getElem?_map, hpq, Option.map_some, Option.some.injEq] using hk2
  rw [hL] at hpq
  have hstop' : tb = ta + ((k.step : ℚ) + 1) * h + (n' + 1 : ℕ) * h := by
    rw [hstop]; push_cast; ring
  have hts' : ts.drop (k.step + 1)
      = stepTimes (ta + ((k.step : ℚ) + 1) * h) h (setDigit h) (n' + 1) := by
    rw [hts, show k.step + 1 + n' + 1 = k.step + 1 + (n' + 1) by ring, stepTimes_add,
      List.drop_left' (by rw [stepTimes_length])]
    push_cast
    rfl
  refine ⟨p', q', n', rfl, hstop', by rw [hdrop, hts'], ?_⟩
  obtain ⟨f1, f2⟩ := killed_step c rate tlRate hc ta tb h files p q _ hh hstop hnd k.step hi k.label
    p' q' hpq k.stage k.writes k.torn hk5
  have hs := load_script c hput (Session.killed c ⟨newTimer ta tb h, c.at p q, files⟩ k.stage
    k.writes k.torn) (ta + ((k.step : ℚ) + 1) * h) tb h (by positivity)
    (by rw [hstop']; have : (0 : ℚ) < (n' + 1 : ℕ) * h := by positivity
        linarith) k.initial p' q' k.label (f1 hk3) (f2 hk4)
  simp only [Session.resumed, start_at]
  show Except.bind (Session.script c _ _) _ = _
  rw [hs]
  rfl

theorem resumed_path (c : Script ι X Y) (hput : ∀ x, c.put (c.P.comp x) x = x) (rate tlRate : ℕ)
    (hc : c.stream = some (rate, tlRate)) (tb h : ℚ) (hh : 0 < h) (ks : List (Crash ι X)) :
    ∀ (ta : ℚ) (files : Dict GFile (X ⊕ (ι → ℝ))) (p q : X) (n : ℕ) (_ : 0 ≤ ta)
      (_ : tb = ta + (n + 1 : ℕ) * h)
      (_ : ((c.path h p q (stepTimes ta h (setDigit h) (n + 1))).map Prod.fst).Nodup)
      (_ : Resumable rate tlRate
        ((c.path h p q (stepTimes ta h (setDigit h) (n + 1))).map Prod.fst) ks)
      (last : ℚ × RunState ι X)
      (_ : (c.path h p q (stepTimes ta h (setDigit h) (n + 1))).getLast? = some last),
    ∃ T', Session.resumed c h tb ta ks ⟨newTimer ta tb h, c.at p q, files⟩
        = .ok (((c.path h p q (stepTimes ta h (setDigit h) (n + 1))).map
            fun p => (p.1, p.2.x)).drop (stepsKept ks), T') ∧
      T'.run = last.2 ∧ T'.timer.t = tb := by
  induction ks with
  | nil =>
    intro ta files p q n h0 hstop hnd _ last hl
    obtain ⟨last', hl', hs⟩ := solve_path c (newTimer ta tb h) files p q n hh hstop
    have : last' = last := Option.some.inj (hl'.symm.trans hl)
    subst this
    exact ⟨_, hs, rfl, rfl⟩
  | cons k ks ih =>
    intro ta files p q n h0 hstop hnd hk last hl
    obtain ⟨p', q', n', hn, hstop', hdrop, he⟩ := resume_one c hput rate tlRate hc ta tb h files p q n
      h0 hh hstop hnd k ks hk
    obtain ⟨-, -, -, -, -, hks⟩ := hk
    rw [← List.map_drop, hdrop] at hks
    rw [he]
    have hlen := path_length c (h : ℝ) p q (stepTimes ta h (setDigit h) (n + 1))
    rw [stepTimes_length] at hlen
    obtain ⟨T', h1, h2, h3⟩ := ih (ta + ((k.step : ℚ) + 1) * h) _ p' q' n' (by positivity) hstop'
      (by rw [← hdrop, List.map_drop]; exact hnd.sublist (List.drop_sublist _ _)) hks last
      (by rw [← hdrop, List.getLast?_drop, if_neg (by omega)]; exact hl)
    refine ⟨T', ?_, h2, h3⟩
    rw [h1, ← hdrop, ← List.map_drop, ← List.map_drop, List.drop_drop]
    rfl

/-- **C101** Interrupted runs can be resumed. A run of `n` steps is started in a process, and would
yield `ys` if it were left alone. Instead the process ends, at whatever point of whatever step, with
whatever becoming of the file it was writing; a new process, with whatever initial state, loads the
unknowns and time levels of a step that had been saved, and solves the rest; it may be interrupted
in turn; and so on, any number of times. The last process yields exactly what the first would have
yielded from there on, and ends with the same unknowns, time levels and time. -/
theorem C101_resume (c : Script ι X Y) (hput : ∀ x, c.put (c.P.comp x) x = x) (rate tlRate : ℕ)
    (hc : c.stream = some (rate, tlRate)) (x0 : X) (files : Dict GFile (X ⊕ (ι → ℝ)))
    (t0 h : ℚ) (ht0 : 0 ≤ t0) (hh : 0 < h) (n : ℕ) (hn : 1 ≤ n) :
    ∃ S S0 ys S', c.start x0 files = .ok S ∧
      Session.script c [.step h, .interval t0 (t0 + n * h)] S = .ok ([], S0) ∧
      S0.solve c = .ok (ys, S') ∧ ys.length = n ∧
      ((ys.map Prod.fst).Nodup → ∀ ks, Resumable rate tlRate (ys.map Prod.fst) ks →
        ∃ T', S0.resumed c h (t0 + n * h) t0 ks = .ok (ys.drop (stepsKept ks), T') ∧
          T'.run = S'.run ∧ T'.timer.t = S'.timer.t) := by
  obtain ⟨m, rfl⟩ : ∃ m, n = m + 1 := ⟨n - 1, by omega⟩
  have hpos : t0 < t0 + (m + 1 : ℕ) * h := by
    have : (0 : ℚ) < (m + 1 : ℕ) * h := by positivity
    linarith
  obtain ⟨last, hl, hs⟩ := solve_path c (newTimer t0 (t0 + (m + 1 : ℕ) * h) h) files x0 x0 m hh rfl
  refine ⟨_, _, _, _, start_at c x0 files, script_setup c t0 _ h ht0 hpos [] _ _ _ rfl, hs,
    by simp [path_length, stepTimes_length], ?_⟩
  intro hnd ks hks
  simp only [List.map_map, Function.comp_def] at hnd hks
  exact resumed_path c hput rate tlRate hc _ h hh ks t0 files x0 x0 m ht0 rfl hnd hks last hl

/-! ## The files -/

/-- What is written at the states `P` if all steps are saved. -/
def Script.wr (c : Script ι X Y) (P : List (ℚ × RunState ι X)) : List (GFile × (X ⊕ (ι → ℝ))) :=
  P.flatMap fun p => c.save p.2 p.1 0

theorem save_one (c : Script ι X Y) (hc : c.stream = some (1, 1)) (st : RunState ι X) (t : ℚ)
    (it : ℕ) : c.save st t it = c.save st t 0 := by
  simp only [Script.save, hc, gfuSave, Nat.mod_one]

theorem savePost_one (c : Script ι X Y) (hc : c.stream = some (1, 1)) (st : RunState ι X) (t : ℚ)
    (it : ℕ) : c.savePost st t it = [] := by
  simp only [Script.savePost, hc, Nat.mod_one, not_true_eq_false, if_false]

theorem zipIdx_wr (c : Script ι X Y) (hc : c.stream = some (1, 1))
    (P : List (ℚ × RunState ι X)) (k : ℕ) :
    (P.zipIdx k).flatMap (fun p => c.save p.1.2 p.1.1 p.2) = c.wr P := by
  unfold Script.wr
  induction P generalizing k with
  | nil => rfl
  | cons a P ih =>
    simp only [List.zipIdx_cons, List.flatMap_cons, ih, save_one c hc _ _ k]

theorem wr_append (c : Script ι X Y) (P Q : List (ℚ × RunState ι X)) :
    c.wr (P ++ Q) = c.wr P ++ c.wr Q := List.flatMap_append

theorem later_writes (c : Script ι X Y) (hc : c.stream = some (1, 1)) (ta tb h : ℚ)
    (files : Dict GFile (X ⊕ (ι → ℝ))) (p q : X) (n : ℕ) (hh : 0 < h)
    (hstop : tb = ta + (n + 1 : ℕ) * h) (i k : ℕ) (hk : i + 1 < k)
    (st : List (GFile × (X ⊕ (ι → ℝ))))
    (hst : (Session.stages c ⟨newTimer ta tb h, c.at p q, files⟩)[k]? = some st) :
    ∀ w ∈ st, w ∈ c.wr ((c.path h p q (stepTimes ta h (setDigit h) (n + 1))).drop (i + 1)) := by
  obtain ⟨last, hl⟩ := path_last c ta h p q n
  rw [new_stages c ta tb h files p q n hh hstop last hl] at hst
  obtain ⟨k, rfl⟩ : ∃ l, k = l + 1 := ⟨k - 1, by omega⟩
  rw [List.getElem?_cons_succ] at hst
  intro w hw
  rw [List.getElem?_append] at hst
  split at hst
  · rename_i hk'
    rw [List.getElem?_map, Option.map_eq_some_iff] at hst
    obtain ⟨⟨b, k'⟩, hb, rfl⟩ := hst
    rw [List.getElem?_zipIdx, Option.map_eq_some_iff] at hb
    obtain ⟨b', hb', e⟩ := hb
    simp only [Prod.mk.injEq] at e
    obtain ⟨rfl, rfl⟩ := e
    rw [save_one c hc] at hw
    refine List.mem_flatMap.2 ⟨b', ?_, hw⟩
    rw [List.mem_iff_getElem?]
    refine ⟨k - (i + 1), ?_⟩
    rw [List.getElem?_drop, show i + 1 + (k - (i + 1)) = k by omega]
    exact hb'
  · have e : st = c.savePost last.2 last.1 n := by
      simpa only [List.mem_singleton] using List.mem_of_getElem? hst
    subst e
    rw [savePost_one c hc] at hw
    simp at hw

theorem resumed_files (c : Script ι X Y) (hput : ∀ x, c.put (c.P.comp x) x = x)
    (hc : c.stream = some (1, 1)) (tb h : ℚ) (hh : 0 < h) (ks : List (Crash ι X)) :
    ∀ (ta : ℚ) (files d : Dict GFile (X ⊕ (ι → ℝ))) (p q : X) (n : ℕ) (_ : 0 ≤ ta)
      (_ : tb = ta + (n + 1 : ℕ) * h)
      (_ : ((c.path h p q (stepTimes ta h (setDigit h) (n + 1))).map Prod.fst).Nodup)
      (_ : Resumable 1 1
        ((c.path h p q (stepTimes ta h (setDigit h) (n + 1))).map Prod.fst) ks)
      (_ : ∀ f : GFile, f.time ≠ some 0 → files.get? f = d.get? f ∨
        f ∈ (c.wr (c.path h p q (stepTimes ta h (setDigit h) (n + 1)))).map Prod.fst)
      (ys : List (ℚ × X)) (T' : Session ι X)
      (_ : Session.resumed c h tb ta ks ⟨newTimer ta tb h, c.at p q, files⟩ = .ok (ys, T')),
    ∀ f : GFile, f.time ≠ some 0 → T'.files.get? f
      = Dict.get? ((c.wr (c.path h p q (stepTimes ta h (setDigit h) (n + 1)))).foldl
          (fun d w => d.set w.1 w.2) d) f := by
  induction ks with
  | nil =>
    intro ta files d p q n h0 hstop hnd _ hd ys T' hT f hf
    obtain ⟨last, hl, hs⟩ := solve_path c (newTimer ta tb h) files p q n hh hstop
    have e := (Prod.mk.inj (Except.ok.inj (hs.symm.trans hT))).2
    rw [← e]
    simp only
    rw [zipIdx_wr c hc, savePost_one c hc, List.append_nil, List.foldl_append]
    apply foldl_set_base
    rw [foldl_set_none]
    · exact hd f hf
    · rintro w hw rfl
      exact hf (save_time c _ _ _ w hw)
  | cons k ks ih =>
    intro ta files d p q n h0 hstop hnd hk hd ys T' hT f hf
    obtain ⟨p', q', n', hn, hstop', hdrop, he⟩ := resume_one c hput 1 1 hc ta tb h files p q n
      h0 hh hstop hnd k ks hk
    obtain ⟨hk1, -, -, -, hk5, hks⟩ := hk
    rw [← List.map_drop, hdrop] at hks
    rw [he] at hT
    set P := c.path h p q (stepTimes ta h (setDigit h) (n + 1)) with hP
    have hsplit : c.wr P = c.wr (P.take (k.step + 1)) ++ c.wr (P.drop (k.step + 1)) := by
      rw [← wr_append, List.take_append_drop]
    have := ih (ta + ((k.step : ℚ) + 1) * h) _
      ((c.wr (P.take (k.step + 1))).foldl (fun d w => d.set w.1 w.2) d) p' q' n' (by positivity)
      hstop' (by rw [← hdrop, List.map_drop]; exact hnd.sublist (List.drop_sublist _ _)) hks ?_ ys T'
      hT f hf
    · rw [this, ← hdrop, hsplit, List.foldl_append]
    · intro f hf
      rw [← hdrop]
      by_cases hw : f ∈ (c.wr (P.drop (k.step + 1))).map Prod.fst
      · exact .inr hw
      · left
        rw [killed_get c _ _ _ (k.step + 1) k.stage k.writes k.torn (by omega) f
          (first_stages c ta tb h files p q n hh hstop k.step (by omega)), zipIdx_wr c hc]
        · apply foldl_set_base
          rw [foldl_set_none]
          · rcases hd f hf with h1 | h1
            · exact .inl h1
            · rw [hsplit, List.map_append, List.mem_append] at h1
              exact .inr (h1.resolve_right hw)
          · rintro w hw' rfl
            exact hf (save_time c _ _ _ w hw')
        · rintro l hl st hst w hw' rfl
          exact hw (List.mem_map.2 ⟨w, later_writes c hc ta tb h files p q n hh hstop k.step l hl st
            hst w hw', rfl⟩)

/-- **C101** The files. If all steps are saved, an interrupted run that was resumed, however often,
ends with the same files as a run that was not interrupted: a file the interruption has damaged is
written again. Only the files with the label `0` may differ (C81: a new process saves the state it
starts from under the label `0`). -/
theorem C101_files (c : Script ι X Y) (hput : ∀ x, c.put (c.P.comp x) x = x)
    (hc : c.stream = some (1, 1)) (x0 : X) (files : Dict GFile (X ⊕ (ι → ℝ)))
    (t0 h : ℚ) (ht0 : 0 ≤ t0) (hh : 0 < h) (n : ℕ) (hn : 1 ≤ n) :
    ∃ S S0 ys S', c.start x0 files = .ok S ∧
      Session.script c [.step h, .interval t0 (t0 + n * h)] S = .ok ([], S0) ∧
      S0.solve c = .ok (ys, S') ∧
      ((ys.map Prod.fst).Nodup → ∀ ks, Resumable 1 1 (ys.map Prod.fst) ks →
        ∃ T', S0.resumed c h (t0 + n * h) t0 ks = .ok (ys.drop (stepsKept ks), T') ∧
          ∀ f : GFile, f.time ≠ some 0 → T'.files.get? f = S'.files.get? f) := by
  obtain ⟨m, rfl⟩ : ∃ m, n = m + 1 := ⟨n - 1, by omega⟩
  have hpos : t0 < t0 + (m + 1 : ℕ) * h := by
    have : (0 : ℚ) < (m + 1 : ℕ) * h := by positivity
    linarith
  obtain ⟨last, hl, hs⟩ := solve_path c (newTimer t0 (t0 + (m + 1 : ℕ) * h) h) files x0 x0 m hh rfl
  refine ⟨_, _, _, _, start_at c x0 files, script_setup c t0 _ h ht0 hpos [] _ _ _ rfl, hs, ?_⟩
  intro hnd ks hks
  simp only [List.map_map, Function.comp_def] at hnd hks
  obtain ⟨T', h1, h2, h3⟩ := resumed_path c hput 1 1 hc _ h hh ks t0 files x0 x0 m ht0 rfl hnd hks
    last hl
  refine ⟨T', h1, fun f hf => ?_⟩
  rw [resumed_files c hput hc _ h hh ks t0 files files x0 x0 m ht0 rfl hnd hks
    (fun f _ => .inl rfl) _ T' h1 f hf]
  exact (resumed_files c hput hc _ h hh [] t0 files files x0 x0 m ht0 rfl hnd trivial
    (fun f _ => .inl rfl) _ _ hs f hf).symm

theorem loop_stages (c : Script ι X Y) (dt : ℝ) (it : ℕ) (ts : List (ℚ × ℚ)) (lab : Option ℚ)
    (st st' : RunState ι X) (ys : List (ℚ × X)) (ws : List (GFile × (X ⊕ (ι → ℝ))))
    (h : c.loop dt it ts st = .ok (ys, ws, st')) (label : ℚ)
    (hl : ((ts.map Prod.snd).getLast?.or lab) = some label) :
    (c.stages dt it ts lab st).flatten
      = ws ++ c.savePost st' label (it + ts.length - 1) := by
  induction ts generalizing it lab st ys ws with
  | nil =>
    simp only [Script.loop, Except.ok.injEq, Prod.mk.injEq] at h
    obtain ⟨rfl, rfl, rfl⟩ := h
    simp only [List.map_nil, List.getLast?_nil, Option.none_or] at hl
    subst hl
    simp [Script.stages]
  | cons a ts ih =>
    obtain ⟨t, l⟩ := a
    simp only [Script.loop] at h
    simp only [Script.stages]
    cases h1 : transientRound c.P c.s dt c.N st t with
    | error e => rw [h1] at h; cases h
    | ok st1 =>
      rw [h1] at h
      change Except.bind (c.loop dt (it + 1) ts st1) _ = _ at h
      cases h2 : c.loop dt (it + 1) ts st1 with
      | error e => rw [h2] at h; cases h
      | ok r =>
        obtain ⟨ys1, ws1, st2⟩ := r
        rw [h2] at h
        simp only [Except.bind, Except.ok.injEq, Prod.mk.injEq] at h
        obtain ⟨rfl, rfl, rfl⟩ := h
        simp only [List.flatten_cons]
        rw [ih (it + 1) (some l) st1 ys1 ws1 h2 (by
          cases ts with
          | nil => simpa using hl
          | cons b ts =>
            rw [List.map_cons, List.map_cons, List.getLast?_cons_cons] at hl
            rw [List.map_cons]
            rw [List.getLast?_cons] at hl ⊢
            exact hl), List.append_assoc]
        congr 3
        simp only [List.length_cons]
        omega

/-- **C101** Nothing else is written: a process that is interrupted only after everything has been
written leaves the files of the completed run. -/
theorem C101_completed (c : Script ι X Y) (S S' : Session ι X) (ys : List (ℚ × X))
    (h : S.solve c = .ok (ys, S')) (j m : ℕ) (torn : Option (Option (X ⊕ (ι → ℝ))))
    (hj : ys.length + 2 ≤ j) : S.killed c j m torn = S'.files := by
  simp only [Session.solve] at h
  cases h1 : S.timer.run false 1 with
  | error e => rw [h1] at h; cases h
  | ok ts =>
    rw [h1] at h
    change Except.bind (c.loop (S.timer.step : ℝ) 0 ts S.run) _ = _ at h
    cases h2 : c.loop (S.timer.step : ℝ) 0 ts S.run with
    | error e => rw [h2] at h; cases h
    | ok r =>
      obtain ⟨ys1, ws, st⟩ := r
      rw [h2] at h
      simp only [Except.bind] at h
      cases h3 : ts.getLast? with
      | none => rw [h3] at h; cases h
      | some tl =>
        rw [h3] at h
        obtain ⟨rfl, h5⟩ := Prod.mk.inj (Except.ok.inj h)
        have hst := loop_stages c _ 0 ts none S.run st ys1 ws h2 tl.2
          (by rw [List.getLast?_map, h3]; rfl)
        have hlen : (S.stages c).length ≤ j := by
          have : ∀ (it : ℕ) (ts : List (ℚ × ℚ)) (lab : Option ℚ) (st : RunState ι X),
              (c.stages (S.timer.step : ℝ) it ts lab st).length ≤ ts.length + 1 := by
            intro it ts
            induction ts generalizing it with
            | nil => intro lab st; cases lab <;> simp [Script.stages]
            | cons a ts ih =>
              intro lab st
              simp only [Script.stages]
              cases transientRound c.P c.s (S.timer.step : ℝ) c.N st a.1 with
              | error e => simp
              | ok st => simpa using ih (it + 1) (some a.2) st
          have h6 := this 0 ts none S.run
          have h7 : ys1.length = ts.length := by
            have := congrArg List.length (loop_labels c _ _ _ _ _ _ _ h2).1
            simpa using this
          simp only [Session.stages, h1, List.length_cons]
          omega
        have hnow : (S.stages c).getD j [] = [] := by
          rw [List.getD_eq_getElem?_getD, List.getElem?_eq_none hlen]; rfl
        have hfl : (S.stages c).flatten
            = c.save S.run S.timer.t 0 ++ ws ++ c.savePost st tl.2 (ts.length - 1) := by
          simp only [Session.stages, h1, List.flatten_cons, hst, List.append_assoc]
          congr 4
          omega
        unfold Session.killed
        simp only [hnow, List.take_of_length_le hlen, List.take_nil, List.append_nil, hfl]
        rw [← h5]
        rfl

/-- **C101** The condition on the stage is necessary: if the process ended before the files of a
step were begun, and there were none of the same name before, a new process cannot load them. -/
theorem C101_too_early (c : Script ι X Y) (x0 : X) (files : Dict GFile (X ⊕ (ι → ℝ)))
    (t0 h : ℚ) (ht0 : 0 ≤ t0) (hh : 0 < h) (n i : ℕ) (hi : i < n) :
    ∃ S S0 ys S', c.start x0 files = .ok S ∧
      Session.script c [.step h, .interval t0 (t0 + n * h)] S = .ok ([], S0) ∧
      S0.solve c = .ok (ys, S') ∧
      ((ys.map Prod.fst).Nodup → ∀ L, (ys.map Prod.fst)[i]? = some L → L ≠ 0 →
        files.get? (.state (some L)) = none → ∀ j ≤ i, ∀ m torn (T : Session ι X),
          T.files = S0.killed c j m torn →
          T.loadState c L = .error .fileNotFound) := by
  obtain ⟨m, rfl⟩ : ∃ m, n = m + 1 := ⟨n - 1, by omega⟩
  have hpos : t0 < t0 + (m + 1 : ℕ) * h := by
    have : (0 : ℚ) < (m + 1 : ℕ) * h := by positivity
    linarith
  obtain ⟨last, hl, hs⟩ := solve_path c (newTimer t0 (t0 + (m + 1 : ℕ) * h) h) files x0 x0 m hh rfl
  refine ⟨_, _, _, _, start_at c x0 files, script_setup c t0 _ h ht0 hpos [] _ _ _ rfl, hs, ?_⟩
  intro hnd L hL hL0 hnone j hj m' torn T hT
  simp only [List.map_map, Function.comp_def] at hnd hL
  change ((c.path h x0 x0 (stepTimes t0 h (setDigit h) (m + 1))).map Prod.fst).Nodup at hnd
  change ((c.path h x0 x0 (stepTimes t0 h (setDigit h) (m + 1))).map Prod.fst)[i]? = some L at hL
  set P := c.path h x0 x0 (stepTimes t0 h (setDigit h) (m + 1)) with hP
  set S0 : Session ι X := ⟨newTimer t0 (t0 + (m + 1 : ℕ) * h) h, c.at x0 x0, files⟩ with hS0
  have hsts := new_stages c t0 (t0 + (m + 1 : ℕ) * h) h files x0 x0 m hh rfl last hl
  have hlenP : P.length = m + 1 := by rw [hP, path_length, stepTimes_length]
  have hearly : ∀ k ≤ i, ∀ st, (S0.stages c)[k]? = some st → ∀ w ∈ st,
      w.1 ≠ .state (some L) := by
    intro k hk st hst w hw e
    have ht : w.1.time = some L := by rw [e]; rfl
    rw [hS0, hsts] at hst
    cases k with
    | zero =>
      simp only [List.getElem?_cons_zero, Option.some.injEq] at hst
      subst hst
      rw [save_time c _ _ _ w hw] at ht
      exact hL0 (Option.some.inj ht).symm
    | succ k =>
      rw [List.getElem?_cons_succ, List.getElem?_append_left
        (by simp [path_length, stepTimes_length]; omega), List.getElem?_map,
        Option.map_eq_some_iff] at hst
      obtain ⟨⟨b, k'⟩, hb, rfl⟩ := hst
      rw [List.getElem?_zipIdx, Option.map_eq_some_iff] at hb
      obtain ⟨b', hb', e'⟩ := hb
      simp only [Prod.mk.injEq] at e'
      obtain ⟨rfl, rfl⟩ := e'
      rw [save_time c _ _ _ w hw] at ht
      have h1 : (P.map Prod.fst)[k]? = some L := by
        rw [List.getElem?_map, hP, hb']
        exact congrArg some (Option.some.inj ht)
      obtain ⟨_, e1⟩ := List.getElem?_eq_some_iff.1 hL
      obtain ⟨_, e2⟩ := List.getElem?_eq_some_iff.1 h1
      have := (List.Nodup.getElem_inj_iff hnd).1 (e1.trans e2.symm)
      omega
  have hnow : ∀ w ∈ (S0.stages c).getD j [], w.1 ≠ .state (some L) := by
    intro w hw
    rw [List.getD_eq_getElem?_getD] at hw
    cases h1 : (S0.stages c)[j]? with
    | none => rw [h1] at hw; simp at hw
    | some st => rw [h1] at hw; exact hearly j hj st h1 w hw
  have hd : Dict.get? ((((S0.stages c).take j).flatten ++
        ((S0.stages c).getD j []).take m').foldl (fun d w => d.set w.1 w.2) S0.files)
          (.state (some L)) = none := by
    rw [foldl_set_none]
    · exact hnone
    intro w hw
    rcases List.mem_append.1 hw with hw | hw
    · obtain ⟨st, h1, h2⟩ := List.mem_flatten.1 hw
      obtain ⟨k, h3⟩ := List.mem_iff_getElem?.1 h1
      rw [List.getElem?_take] at h3
      split at h3
      · exact hearly k (by omega) st h3 w h2
      · cases h3
    · exact hnow w (List.mem_of_mem_take hw)
  have hk : (S0.killed c j m' torn).get? (.state (some L)) = none := by
    unfold Session.killed
    simp only
    cases h1 : ((S0.stages c).getD j [])[m']? with
    | none => cases torn <;> exact hd
    | some w =>
      have hw := hnow w (List.mem_of_getElem? h1)
      cases torn with
      | none => exact hd
      | some t =>
        cases t with
        | none => exact (get?_erase _ _ _ hw.symm).trans hd
        | some v => simp only; rw [Dict.get?_set, if_neg hw.symm]; exact hd
  simp only [Session.loadState, hT, hk]

end

/-! ## A concrete case -/

/-- Uniform motion over `(0, 2)` in four steps: the process ends while it writes the files of the
third step and leaves one of them damaged; a new one resumes from the first step, and ends while it
writes its second file of the third step, which is then missing; a third one resumes from its
first step, `t = 1`, and completes the run. -/
example : ∃ S0 S' T', (motion .bdf2).start 0 [] = .ok S0 ∧
    Session.script (motion .bdf2) (freshRun 0 (1/2) 4) S0 = .ok (motionYields .bdf2, S') ∧
    (∃ S1, Session.script (motion .bdf2) [.step (1/2), .interval 0 2] S0 = .ok ([], S1) ∧
      S1.resumed (motion .bdf2) (1/2) 2 0
        [⟨3, 1, some (some (.inl 100)), 5, 0, 1/2⟩, ⟨2, 1, some none, 6, 0, 1⟩]
        = .ok ([(3/2, 34/27), (2, 142/81)], T')) ∧
    ∀ f : GFile, f.time ≠ some 0 → T'.files.get? f = S'.files.get? f := by
  obtain ⟨S, S0, ys, S', h1, h2, h3, h4⟩ := C101_files (motion .bdf2) (fun x => rfl) rfl 0 [] 0
    (1/2) le_rfl (by norm_num) 4 (by norm_num)
  have hrun : Session.script (motion .bdf2) (freshRun 0 (1/2) 4) S = .ok (ys, S') := by
    have hS := Except.ok.inj ((start_at (motion .bdf2) 0 []).symm.trans h1)
    subst hS
    have e := script_setup_eq (motion .bdf2) 0 (0 + (4 : ℕ) * (1/2)) (1/2) le_rfl (by norm_num)
      [] ((motion .bdf2).at 0 0) []
    rw [h2] at e
    have e2 := (Prod.mk.inj (Except.ok.inj e)).2
    have e3 := script_setup_eq (motion .bdf2) 0 (0 + (4 : ℕ) * (1/2)) (1/2) le_rfl (by norm_num)
      [.solve] ((motion .bdf2).at 0 0) []
    rw [script_solve_eq] at e3
    rw [e2] at h3
    exact e3.trans h3
  have e := motion_four .bdf2 [] S S' ys h1 hrun
  subst e
  obtain ⟨T', k1, k2⟩ := h4 (by simp [motionYields]; norm_num)
    [⟨3, 1, some (some (.inl 100)), 5, 0, 1/2⟩, ⟨2, 1, some none, 6, 0, 1⟩]
    (by simp [Resumable, motionYields])
  norm_num at h2 k1
  exact ⟨S, S', T', h1, hrun, ⟨S0, h2, k1⟩, k2⟩

end Dream
