import Verif.Props.Output

/-!
# C10, C59: replaying a run from its files
-/

namespace Dream

open Run

theorem foldl_set_none {κ V} [DecidableEq κ] (d : Dict κ V) (ws : List (κ × V)) (k : κ)
    (h : ∀ w ∈ ws, w.1 ≠ k) : (ws.foldl (fun d w => d.set w.1 w.2) d).get? k = d.get? k := by
  induction ws generalizing d with
  | nil => rfl
  | cons w ws ih =>
    rw [List.foldl_cons, ih _ fun w hw => h w (by simp [hw]), Dict.get?_set,
      if_neg fun e => h w (by simp) e.symm]

theorem foldl_set_some {κ V} [DecidableEq κ] (d : Dict κ V) (ws : List (κ × V)) (k : κ) (v : V)
    (hm : (k, v) ∈ ws) (hu : ∀ v', (k, v') ∈ ws → v' = v) :
    (ws.foldl (fun d w => d.set w.1 w.2) d).get? k = some v := by
  induction ws generalizing d with
  | nil => simp at hm
  | cons w ws ih =>
    rw [List.foldl_cons]
    by_cases h : ∃ v', (k, v') ∈ ws
    · obtain ⟨v', hv'⟩ := h
      have := hu v' (by simp [hv'])
      subst this
      exact ih _ hv' fun v'' hv'' => hu v'' (by simp [hv''])
    · rw [foldl_set_none _ _ _ fun w hw e => h ⟨w.2, by rw [← e]; exact hw⟩]
      rcases List.mem_cons.1 hm with rfl | hm
      · simp [Dict.get?_set]
      · exact absurd ⟨v, hm⟩ h

/-- The files after an undisturbed transient run (with the gridfunction stream on). -/
def filesAfterRun {V} (data : List SKind) (reassemble : Bool) (tm : Timer) (rate tlRate : ℕ)
    (levels : List (String × String)) (gfu : ℕ → V) (lev : ℕ → String → String → V) :
    Dict GFile V :=
  fileSystem (records (gfuHooks rate tlRate levels gfu lev) .gfu 0
    (transientRoutine quiet data reassemble tm).trace)

section
variable {V : Type} (data : List SKind) (reassemble : Bool) (tm : Timer) (rate tlRate : ℕ)
  (levels : List (String × String)) (gfu : ℕ → V) (lev : ℕ → String → String → V)
  (ts : List (ℚ × ℚ))

theorem mem_gfuSave_state {t L : ℚ} {it n : ℕ} {v : V} :
    (GFile.state (some L), v) ∈ gfuSave rate tlRate levels gfu lev (some t) it n ↔
      L = t ∧ it % rate = 0 ∧ v = gfu n := by
  unfold gfuSave
  rw [List.mem_append]
  by_cases h1 : it % tlRate = 0 <;> by_cases h2 : it % rate = 0 <;> simp [h1, h2]

theorem mem_gfuSave_level {t L : ℚ} {it n : ℕ} {v : V} {f l : String} :
    (GFile.level L f l, v) ∈ gfuSave rate tlRate levels gfu lev (some t) it n ↔
      L = t ∧ it % tlRate = 0 ∧ (f, l) ∈ levels ∧ v = lev n f l := by
  unfold gfuSave
  rw [List.mem_append]
  by_cases h1 : it % tlRate = 0 <;> by_cases h2 : it % rate = 0 <;> simp [h1, h2]
  all_goals
    constructor
    · rintro ⟨hab, rfl, rfl⟩; exact ⟨rfl, hab, rfl⟩
    · rintro ⟨rfl, hab, rfl⟩; exact ⟨hab, rfl, rfl⟩

/-- What is written after the initial state (helper). -/
theorem files_split (hr : tm.run false 1 = .ok ts) (hne : ts ≠ []) (hd : data.Nodup)
    (hs : .ngsmesh ∉ data ∧ .settings ∉ data) (hv : .gfu ∈ data) :
    ∃ ws : List (GFile × V),
      filesAfterRun data reassemble tm rate tlRate levels gfu lev =
        ws.foldl (fun (d : Dict GFile V) w => d.set w.1 w.2)
          ((gfuSave rate tlRate levels gfu lev (some tm.t) 0 0).foldl
            (fun (d : Dict GFile V) w => d.set w.1 w.2) []) ∧
      (∀ L v, (GFile.state (some L), v) ∈ ws ↔ ∃ it, ∃ h : it < ts.length,
        L = ts[it].2 ∧ v = gfu (it + 1) ∧ (rate ∣ it ∨ it + 1 = ts.length)) ∧
      (∀ L f l v, (GFile.level L f l, v) ∈ ws ↔ ∃ it, ∃ h : it < ts.length,
        L = ts[it].2 ∧ v = lev (it + 1) f l ∧ (f, l) ∈ levels ∧
          (tlRate ∣ it ∨ (it + 1 = ts.length ∧ ¬ rate ∣ it))) := by
  obtain ⟨l, t, e, elen, hl⟩ := labels_split hne
  refine ⟨((l ++ [t]).zipIdx.flatMap fun x =>
        gfuSave rate tlRate levels gfu lev (some x.1) x.2 (x.2 + 1)) ++
      (if ¬ l.length % rate = 0 then
        gfuSave rate tlRate levels gfu lev (some t) 0 (l.length + 1) else []), ?_, ?_⟩
  · unfold filesAfterRun fileSystem
    rw [gfu_writes data reassemble tm rate tlRate levels gfu lev ts hr hd hs hv l t e elen hl,
      List.append_assoc, List.foldl_append]
  have hget : ∀ it (h : it < ts.length), (l ++ [t])[it]? = some ts[it].2 := by
    intro it h
    rw [← e]
    simp [h]
  have hmem : ∀ x, x ∈ (l ++ [t]).zipIdx ↔ ∃ h : x.2 < ts.length, x.1 = ts[x.2].2 := by
    intro x
    rw [List.mem_zipIdx_iff_getElem?]
    constructor
    · intro h
      have hlt : x.2 < (l ++ [t]).length := (List.getElem?_eq_some_iff.1 h).1
      have hlt' : x.2 < ts.length := by rw [elen]; simpa using hlt
      refine ⟨hlt', ?_⟩
      rw [hget _ hlt'] at h
      exact (Option.some.inj h).symm
    · rintro ⟨h, hx⟩
      rw [hget _ h, hx]
  have hlast : t = ts[l.length].2 := by
    have := hget l.length (by omega)
    simpa using this
  constructor
  · intro L v
    rw [List.mem_append, List.mem_flatMap]
    constructor
    · rintro (⟨x, hx, hw⟩ | hw)
      · obtain ⟨h, hx⟩ := (hmem x).1 hx
        obtain ⟨rfl, h2, rfl⟩ := (mem_gfuSave_state ..).1 hw
        exact ⟨x.2, h, hx, rfl, .inl (Nat.dvd_of_mod_eq_zero h2)⟩
      · split_ifs at hw with hc
        · simp at hw
        · obtain ⟨rfl, h2, rfl⟩ := (mem_gfuSave_state ..).1 hw
          exact ⟨l.length, by omega, hlast, rfl, .inr (by omega)⟩
    · rintro ⟨it, h, rfl, rfl, h2⟩
      by_cases hd : rate ∣ it
      · left
        exact ⟨(ts[it].2, it), (hmem _).2 ⟨h, rfl⟩,
          (mem_gfuSave_state ..).2 ⟨rfl, Nat.mod_eq_zero_of_dvd hd, rfl⟩⟩
      · right
        have h3 := h2.resolve_left hd
        have : it = l.length := by omega
        subst this
        rw [if_pos fun hc => hd (Nat.dvd_of_mod_eq_zero hc)]
        exact (mem_gfuSave_state ..).2 ⟨hlast.symm, Nat.zero_mod _, rfl⟩
  · intro L f lv v
    rw [List.mem_append, List.mem_flatMap]
    constructor
    · rintro (⟨x, hx, hw⟩ | hw)
      · obtain ⟨h, hx⟩ := (hmem x).1 hx
        obtain ⟨rfl, h2, h3, rfl⟩ := (mem_gfuSave_level ..).1 hw
        exact ⟨x.2, h, hx, rfl, h3, .inl (Nat.dvd_of_mod_eq_zero h2)⟩
      · split_ifs at hw with hc
        · simp at hw
        · obtain ⟨rfl, h2, h3, rfl⟩ := (mem_gfuSave_level ..).1 hw
          exact ⟨l.length, by omega, hlast, rfl, h3,
            .inr ⟨by omega, fun hd => hc (Nat.mod_eq_zero_of_dvd hd)⟩⟩
    · rintro ⟨it, h, rfl, rfl, hfl, h2⟩
      by_cases hd : tlRate ∣ it
      · left
        exact ⟨(ts[it].2, it), (hmem _).2 ⟨h, rfl⟩,
          (mem_gfuSave_level ..).2 ⟨rfl, Nat.mod_eq_zero_of_dvd hd, hfl, rfl⟩⟩
      · right
        have h3 := h2.resolve_left hd
        have : it = l.length := by omega
        subst this
        rw [if_pos fun hc => h3.2 (Nat.dvd_of_mod_eq_zero hc)]
        exact (mem_gfuSave_level ..).2 ⟨hlast.symm, Nat.zero_mod _, hfl, rfl⟩

theorem nodup_labels_inj (hnd : (ts.map Prod.snd).Nodup) {i j : ℕ} (hi : i < ts.length)
    (hj : j < ts.length) (h : ts[i].2 = ts[j].2) : i = j := by
  have hi' : i < (ts.map Prod.snd).length := by simpa using hi
  have hj' : j < (ts.map Prod.snd).length := by simpa using hj
  have : (ts.map Prod.snd)[i] = (ts.map Prod.snd)[j] := by simpa using h
  exact (hnd.getElem_inj_iff).1 this

/-- The state files after a run: the file of step `it` holds the state after that step
if it was due (helper). -/
theorem files_state (hr : tm.run false 1 = .ok ts) (hne : ts ≠ []) (hd : data.Nodup)
    (hs : .ngsmesh ∉ data ∧ .settings ∉ data) (hv : .gfu ∈ data) (hnd : (ts.map Prod.snd).Nodup)
    (it : ℕ) (h : it < ts.length) :
    (rate ∣ it ∨ it + 1 = ts.length →
      (filesAfterRun data reassemble tm rate tlRate levels gfu lev).get? (.state (some ts[it].2)) =
        some (gfu (it + 1))) ∧
    (¬ (rate ∣ it ∨ it + 1 = ts.length) → tm.t ≠ ts[it].2 →
      (filesAfterRun data reassemble tm rate tlRate levels gfu lev).get? (.state (some ts[it].2)) =
        none) := by
  obtain ⟨ws, e, h1, _⟩ := files_split data reassemble tm rate tlRate levels gfu lev ts hr hne hd hs hv
  rw [e]
  constructor
  · intro hdue
    apply foldl_set_some
    · exact (h1 _ _).2 ⟨it, h, rfl, rfl, hdue⟩
    · intro v' hv'
      obtain ⟨it', h', e1, e2, _⟩ := (h1 _ _).1 hv'
      have := nodup_labels_inj ts hnd h h' e1
      subst this
      exact e2
  · intro hdue ht
    rw [foldl_set_none, foldl_set_none]
    · rfl
    · intro w hw hk
      obtain ⟨k, v⟩ := w
      simp only at hk
      subst hk
      exact ht ((mem_gfuSave_state ..).1 hw).1.symm
    · intro w hw hk
      obtain ⟨k, v⟩ := w
      simp only at hk
      subst hk
      obtain ⟨it', h', e1, _, e3⟩ := (h1 _ _).1 hw
      have := nodup_labels_inj ts hnd h h' e1
      subst this
      exact hdue e3

theorem mapM_except_ok {α β} (l : List α) (f : α → Except PyErr β) (g : α → β)
    (h : ∀ a ∈ l, f a = .ok (g a)) : l.mapM f = .ok (l.map g) := by
  induction l with
  | nil => rfl
  | cons a l ih =>
    rw [List.mapM_cons, h a (by simp), ih fun b hb => h b (by simp [hb])]
    rfl

theorem mapM_map' {α β γ} (l : List α) (g : α → β) (f : β → Except PyErr γ) :
    (l.map g).mapM f = l.mapM fun a => f (g a) := by
  induction l with
  | nil => rfl
  | cons a l ih => rw [List.map_cons, List.mapM_cons, List.mapM_cons, ih]

theorem mapM_except_error {α β} (l : List α) (f : α → Except PyErr β) (e : PyErr) {a : α} (ha : a ∈ l)
    (h : f a = .error e) (hall : ∀ b ∈ l, (∃ v, f b = .ok v) ∨ f b = .error e) :
    l.mapM f = .error e := by
  induction l with
  | nil => cases ha
  | cons b l ih =>
    rw [List.mapM_cons]
    rcases hall b (by simp) with ⟨v, hv⟩ | hv
    · rw [hv]
      have ha' : a ∈ l := by
        rcases List.mem_cons.1 ha with rfl | h'
        · rw [h] at hv; cases hv
        · exact h'
      rw [ih ha' fun c hc => hall c (by simp [hc])]
      rfl
    · rw [hv]; rfl

/-- **C10** (rate 1) After an undisturbed transient run that saved every step, replaying
visits every step and yields, at the label of each step, the state of exactly that step. -/
theorem C10_rate_one_partial (hr : tm.run false 1 = .ok ts) (hne : ts ≠ []) (hd : data.Nodup)
    (hs : .ngsmesh ∉ data ∧ .settings ∉ data) (hv : .gfu ∈ data)
    (hnd : (ts.map Prod.snd).Nodup) :
    loadTransient (filesAfterRun data reassemble tm 1 tlRate levels gfu lev) tm 1 =
      .ok (ts.zipIdx.map fun x => (x.1.2, gfu (x.2 + 1))) := by
  unfold loadTransient
  rw [hr]
  have key : ∀ it (h : it < ts.length),
      (filesAfterRun data reassemble tm 1 tlRate levels gfu lev).get? (.state (some ts[it].2)) =
        some (gfu (it + 1)) := fun it h =>
    (files_state data reassemble tm 1 tlRate levels gfu lev ts hr hne hd hs hv hnd it h).1
      (.inl (one_dvd _))
  show ts.mapM _ = _
  suffices H : ∀ (l : List (ℚ × ℚ)) (k : ℕ), (∀ i (h : i < l.length),
      (filesAfterRun data reassemble tm 1 tlRate levels gfu lev).get? (.state (some l[i].2)) =
        some (gfu (k + i + 1))) →
      l.mapM (fun tl => match
        (filesAfterRun data reassemble tm 1 tlRate levels gfu lev).get? (.state (some tl.2)) with
        | none => .error .fileNotFound
        | some v => .ok (tl.2, v)) =
      (.ok ((l.zipIdx k).map fun x => (x.1.2, gfu (x.2 + 1))) : Except PyErr _) by
    exact H ts 0 fun i h => by simpa using key i h
  intro l
  induction l with
  | nil => intro k _; rfl
  | cons a l ih =>
    intro k h
    have h0 := h 0 (by simp)
    simp only [List.getElem_cons_zero, Nat.add_zero] at h0
    rw [List.mapM_cons, h0, ih (k + 1) fun i hi => by
      have := h (i + 1) (by simpa using hi)
      simp only [List.getElem_cons_succ] at this
      rw [this]
      congr 2
      omega]
    rfl

/-- **C10 fails** for every rate `r ≥ 2`: the run saves the steps `0, r, 2r, …` (counted
from 0) while replaying visits the steps `r-1, 2r-1, …`, so the first file it asks for
does not exist (unless step `r-1` is the last or has the label of the initial time). -/
theorem C10_fails_stride (hr : tm.run false 1 = .ok ts) (hd : data.Nodup)
    (hs : .ngsmesh ∉ data ∧ .settings ∉ data) (hv : .gfu ∈ data)
    (hnd : (ts.map Prod.snd).Nodup) (h2 : 2 ≤ rate) (hlen : rate < ts.length)
    (ht : ∀ h : rate - 1 < ts.length, tm.t ≠ ts[rate - 1].2) :
    loadTransient (filesAfterRun data reassemble tm rate tlRate levels gfu lev) tm rate =
      .error .fileNotFound := by
  have hne : ts ≠ [] := by rintro rfl; simp at hlen
  have hstep : ((1 : ℕ) : ℚ) * tm.step ≠ 0 := by
    intro h
    unfold Timer.run at hr
    rw [if_pos h] at hr
    simp at hr
  have hstep' : tm.step ≠ 0 := by simpa using hstep
  have hr0 : (rate : ℚ) ≠ 0 := by
    have : rate ≠ 0 := by omega
    exact_mod_cast this
  have e1 := Timer.run_eq tm false 1 hstep
  rw [hr] at e1
  have e1' := Except.ok.inj e1
  have er := Timer.run_eq tm false rate (mul_ne_zero hr0 hstep')
  set q := (tm.stop - tm.start) / tm.step with hq
  have hq1 : (tm.stop - tm.start) / (((1 : ℕ) : ℚ) * tm.step) = q := by rw [hq]; simp
  have hqr : (tm.stop - tm.start) / ((rate : ℚ) * tm.step) = q / rate := by
    rw [hq]; field_simp
  rw [hq1] at e1'
  rw [hqr] at er
  have hl : (ts.length : ℤ) = pyRound q ∨ ts.length = 0 := by
    rw [e1']; simp; omega
  have hlq : pyRound q = ts.length := by omega
  have hqlow : (rate : ℚ) + 1 / 2 ≤ q := by
    have := abs_le.1 (pyRound_abs_le q)
    have h3 : ((rate : ℤ) + 1 : ℤ) ≤ pyRound q := by omega
    have h3' : (rate : ℚ) + 1 ≤ (pyRound q : ℚ) := by exact_mod_cast h3
    linarith [this.1, this.2]
  have hpos : 0 < (pyRound (q / rate) + 1 - (1 - false.toNat : ℕ)).toNat := by
    have := abs_le.1 (pyRound_abs_le (q / rate))
    have hrp : (0 : ℚ) < rate := by
      have : 0 < rate := by omega
      exact_mod_cast this
    have h1 : 1 < q / rate := by rw [lt_div_iff₀ hrp]; linarith
    have h3 : (0 : ℚ) < (pyRound (q / rate) : ℚ) := by linarith [this.1, this.2]
    have h4 : 0 < pyRound (q / rate) := by exact_mod_cast h3
    simp only [Bool.toNat_false]
    omega
  have hidx : rate - 1 < ts.length := by omega
  have hlabel : ts[rate - 1].2 = pyRoundDigits (tm.start + (rate : ℚ) *
      ((1 - false.toNat + 0 : ℕ) : ℚ) * tm.step) tm.digit := by
    simp only [e1', List.getElem_map, List.getElem_range]
    congr 1
    have : ((1 - false.toNat + (rate - 1) : ℕ) : ℚ) = rate := by
      have : 1 - false.toNat + (rate - 1) = rate := by simp; omega
      rw [this]
    rw [this]
    simp
  have hnone := (files_state data reassemble tm rate tlRate levels gfu lev ts hr hne hd hs hv hnd
    (rate - 1) hidx).2 (by
      rintro (h | h)
      · obtain ⟨c, hc⟩ := h
        rcases c with _ | c
        · omega
        · have : rate * (c + 1) = rate * c + rate := by ring
          omega
      · omega) (ht hidx)
  unfold loadTransient
  rw [er]
  obtain ⟨m, hm⟩ : ∃ m, (pyRound (q / rate) + 1 - (1 - false.toNat : ℕ)).toNat = m + 1 :=
    ⟨_, (Nat.succ_pred_eq_of_pos hpos).symm⟩
  rw [hm, List.range_succ_eq_map, List.map_cons]
  show List.mapM _ _ = _
  rw [List.mapM_cons]
  dsimp only
  rw [← hlabel, hnone]
  rfl

/-- **C10** Exactly when a run of `n` steps, saved with one rate, can be replayed with the same or
another rate `r`, and what is replayed then: replaying visits the steps `r, 2r, …`, as many as
`round(n / r)`, and each of them must be a step of the run that has been saved, `1`, `1 + rate`,
`1 + 2 rate`, … or the last one. (The steps must have different labels, different from the one of the
initial time.) -/
theorem C10_replay_iff (n : ℕ) (hn0 : 0 < n) (hstep : tm.step ≠ 0)
    (hn : tm.stop - tm.start = n * tm.step) (hd : data.Nodup)
    (hs : .ngsmesh ∉ data ∧ .settings ∉ data) (hv : .gfu ∈ data)
    (hinj : ∀ j k : ℕ, pyRoundDigits (tm.start + j * tm.step) tm.digit =
      pyRoundDigits (tm.start + k * tm.step) tm.digit → j = k)
    (ht : ∀ k : ℕ, 0 < k → tm.t ≠ pyRoundDigits (tm.start + k * tm.step) tm.digit)
    (r : ℕ) (hr : 0 < r) :
    loadTransient (filesAfterRun data reassemble tm rate tlRate levels gfu lev) tm r =
      if ∀ k < (pyRound (n / r)).toNat,
        (k + 1) * r ≤ n ∧ (rate ∣ (k + 1) * r - 1 ∨ (k + 1) * r = n)
      then .ok ((List.range (pyRound (n / r)).toNat).map fun k : ℕ =>
        (pyRoundDigits (tm.start + ((k + 1) * r : ℕ) * tm.step) tm.digit, gfu ((k + 1) * r)))
      else .error .fileNotFound := by
  have hr0 : (r : ℚ) ≠ 0 := by exact_mod_cast hr.ne'
  have e1 := Timer.run_eq tm false 1 (by simpa using hstep)
  have er := Timer.run_eq tm false r (mul_ne_zero hr0 hstep)
  have q1 : (tm.stop - tm.start) / (((1 : ℕ) : ℚ) * tm.step) = (n : ℕ) := by
    rw [hn]; field_simp; simp
  have qr : (tm.stop - tm.start) / ((r : ℚ) * tm.step) = n / r := by
    rw [hn]; field_simp
  rw [q1, pyRound_natCast] at e1
  rw [qr] at er
  have l1 : ((n : ℤ) + 1 - (1 - false.toNat : ℕ)).toNat = n := by simp
  have lr : (pyRound ((n : ℚ) / r) + 1 - (1 - false.toNat : ℕ)).toNat = (pyRound ((n : ℚ) / r)).toNat := by
    simp
  rw [l1] at e1
  rw [lr] at er
  obtain ⟨ts, hts⟩ : ∃ ts, ts = (List.range n).map fun k : ℕ =>
    (tm.start + ((k + 1 : ℕ) : ℚ) * tm.step,
      pyRoundDigits (tm.start + ((k + 1 : ℕ) : ℚ) * tm.step) tm.digit) := ⟨_, rfl⟩
  have hrun : tm.run false 1 = .ok ts := by
    rw [e1, hts]
    congr 1
    apply List.map_congr_left
    intro k _
    simp [add_comm]
  have hlen : ts.length = n := by simp [hts]
  have hget : ∀ it (h : it < ts.length),
      ts[it].2 = pyRoundDigits (tm.start + ((it + 1 : ℕ) : ℚ) * tm.step) tm.digit := by
    intro it h; simp [hts]
  have hnd : (ts.map Prod.snd).Nodup := by
    rw [hts, List.map_map]
    refine (List.nodup_range).map ?_
    intro j k h
    exact Nat.succ_injective (hinj _ _ h)
  have hne : ts ≠ [] := by rintro rfl; simp at hlen; omega
  obtain ⟨ws, e, hw, -⟩ := files_split data reassemble tm rate tlRate levels gfu lev ts hrun hne hd hs hv
  have key : ∀ k : ℕ, 0 < k →
      (filesAfterRun data reassemble tm rate tlRate levels gfu lev).get?
        (.state (some (pyRoundDigits (tm.start + k * tm.step) tm.digit))) =
      if k ≤ n ∧ (rate ∣ k - 1 ∨ k = n) then some (gfu k) else none := by
    intro k hk
    rw [e]
    obtain ⟨k, rfl⟩ : ∃ j, k = j + 1 := ⟨k - 1, by omega⟩
    split_ifs with hc
    · have hi : k < ts.length := by omega
      apply foldl_set_some
      · exact (hw _ _).2 ⟨k, hi, (hget k hi).symm, rfl, by simpa [hlen] using hc.2⟩
      · intro v' hv'
        obtain ⟨it, hi', e1, e2, -⟩ := (hw _ _).1 hv'
        rw [hget it hi'] at e1
        rw [e2, hinj _ _ e1]
    · rw [foldl_set_none, foldl_set_none]
      · rfl
      · rintro ⟨f, v⟩ hm hk'
        simp only at hk'
        subst hk'
        exact ht _ hk ((mem_gfuSave_state ..).1 hm).1.symm
      · rintro ⟨f, v⟩ hm hk'
        simp only at hk'
        subst hk'
        obtain ⟨it, hi', e1, -, e3⟩ := (hw _ _).1 hm
        rw [hget it hi'] at e1
        obtain rfl : k = it := Nat.succ_injective (hinj _ _ e1)
        exact hc ⟨by omega, by simpa [hlen] using e3⟩
  unfold loadTransient
  rw [er]
  show List.mapM _ _ = _
  generalize (pyRound ((n : ℚ) / r)).toNat = m
  set fs := filesAfterRun data reassemble tm rate tlRate levels gfu lev with hfs
  have vis : ∀ k : ℕ, pyRoundDigits (tm.start + (r : ℚ) * ((1 - false.toNat + k : ℕ) : ℚ) * tm.step)
      tm.digit = pyRoundDigits (tm.start + ((k + 1) * r : ℕ) * tm.step) tm.digit := by
    intro k
    congr 2
    push_cast
    simp only [Bool.toNat_false]
    push_cast
    ring
  have one : ∀ k : ℕ, (match fs.get? (.state (some (pyRoundDigits (tm.start + (r : ℚ) *
        ((1 - false.toNat + k : ℕ) : ℚ) * tm.step) tm.digit))) with
      | none => .error .fileNotFound
      | some v => .ok (pyRoundDigits (tm.start + (r : ℚ) *
        ((1 - false.toNat + k : ℕ) : ℚ) * tm.step) tm.digit, v) : Except PyErr (ℚ × V)) =
      if (k + 1) * r ≤ n ∧ (rate ∣ (k + 1) * r - 1 ∨ (k + 1) * r = n) then
        .ok (pyRoundDigits (tm.start + ((k + 1) * r : ℕ) * tm.step) tm.digit, gfu ((k + 1) * r))
      else .error .fileNotFound := by
    intro k
    rw [vis k, key _ (Nat.mul_pos (Nat.succ_pos k) hr)]
    split_ifs <;> rfl
  by_cases hall : ∀ k < m, (k + 1) * r ≤ n ∧ (rate ∣ (k + 1) * r - 1 ∨ (k + 1) * r = n)
  · rw [if_pos hall, mapM_map']
    apply mapM_except_ok
    intro k hk
    exact (one k).trans (if_pos (hall k (List.mem_range.1 hk)))
  · rw [if_neg hall, mapM_map']
    push Not at hall
    obtain ⟨k, hk, hc⟩ := hall
    apply mapM_except_error (a := k) _ _ _ (List.mem_range.2 hk)
    · exact (one k).trans (if_neg fun h => h.2.elim (hc h.1).1 (hc h.1).2)
    · intro j hj
      by_cases hj' : (j + 1) * r ≤ n ∧ (rate ∣ (j + 1) * r - 1 ∨ (j + 1) * r = n)
      · exact .inl ⟨_, (one j).trans (if_pos hj')⟩
      · exact .inr ((one j).trans (if_neg hj'))

theorem pyRound_half {x : ℚ} (h0 : 0 ≤ x) : (pyRound x).toNat = 0 ↔ x ≤ 1 / 2 := by
  have h1 := pyRound_nonneg h0
  constructor
  · intro h
    have : pyRound x = 0 := by omega
    have := le_pyRound x
    rw [‹pyRound x = 0›] at this
    push_cast at this
    linarith
  · intro h
    have hf : ⌊x⌋ = 0 := Int.floor_eq_zero_iff.2 ⟨h0, by linarith⟩
    unfold pyRound
    simp only [hf]
    split_ifs with a b c
    · rfl
    · push_cast at b; linarith
    · rfl
    · simp at c

/-- **C10** Every run with `n` steps and saving rate `r`: with rate 1 all states are replayed, with
rate `n` the last one, with rates from `2 n` on nothing, and with every other rate replaying fails. -/
theorem C10_every_rate (n : ℕ) (hn0 : 0 < n) (hstep : tm.step ≠ 0)
    (hn : tm.stop - tm.start = n * tm.step) (hd : data.Nodup)
    (hs : .ngsmesh ∉ data ∧ .settings ∉ data) (hv : .gfu ∈ data)
    (hinj : ∀ j k : ℕ, pyRoundDigits (tm.start + j * tm.step) tm.digit =
      pyRoundDigits (tm.start + k * tm.step) tm.digit → j = k)
    (ht : ∀ k : ℕ, 0 < k → tm.t ≠ pyRoundDigits (tm.start + k * tm.step) tm.digit)
    (hr : 0 < rate) :
    loadTransient (filesAfterRun data reassemble tm rate tlRate levels gfu lev) tm rate =
      if rate = 1 then .ok ((List.range n).map fun k : ℕ =>
        (pyRoundDigits (tm.start + (k + 1 : ℕ) * tm.step) tm.digit, gfu (k + 1)))
      else if rate = n then .ok [(pyRoundDigits (tm.start + n * tm.step) tm.digit, gfu n)]
      else if 2 * n ≤ rate then .ok []
      else .error .fileNotFound := by
  rw [C10_replay_iff data reassemble tm rate tlRate levels gfu lev n hn0 hstep hn hd hs hv hinj ht rate hr]
  have hrq : (0 : ℚ) < rate := by exact_mod_cast hr
  have hq : (0 : ℚ) ≤ n / rate := by positivity
  by_cases h1 : rate = 1
  · subst h1
    have : (pyRound ((n : ℚ) / (1 : ℕ))).toNat = n := by
      rw [Nat.cast_one, div_one, pyRound_natCast]; rfl
    rw [this, if_pos, if_pos rfl]
    · simp
    · intro k hk
      exact ⟨by omega, .inl (one_dvd _)⟩
  rw [if_neg h1]
  by_cases h2 : rate = n
  · subst h2
    have : (pyRound ((rate : ℚ) / rate)).toNat = 1 := by
      rw [div_self hrq.ne', show (1 : ℚ) = ((1 : ℕ) : ℚ) by simp, pyRound_natCast]; rfl
    rw [this, if_pos, if_pos rfl]
    · simp
    · intro k hk
      obtain rfl : k = 0 := by omega
      simp
  rw [if_neg h2]
  by_cases h3 : 2 * n ≤ rate
  · have : (pyRound ((n : ℚ) / rate)).toNat = 0 := by
      rw [pyRound_half hq, div_le_iff₀ hrq]
      have : (2 : ℚ) * n ≤ rate := by exact_mod_cast h3
      linarith
    rw [this, if_pos h3]
    simp
  · rw [if_neg h3, if_neg]
    intro hall
    have hm : 0 < (pyRound ((n : ℚ) / rate)).toNat := by
      rw [Nat.pos_iff_ne_zero, Ne, pyRound_half hq, not_le, lt_div_iff₀ hrq]
      have : (rate : ℚ) < 2 * n := by exact_mod_cast not_le.1 h3
      linarith
    obtain ⟨-, hc⟩ := hall 0 hm
    rw [Nat.zero_add, one_mul] at hc
    rcases hc with hc | hc
    · have := Nat.le_of_dvd (by omega) hc
      omega
    · exact h2 hc

/-- **C10** A run saved with rate 1 can be replayed with every rate `r` that divides the number of
steps: every `r`-th state, with its label. -/
theorem C10_subsample (n r : ℕ) (hn0 : 0 < n) (hstep : tm.step ≠ 0)
    (hn : tm.stop - tm.start = n * tm.step) (hd : data.Nodup)
    (hs : .ngsmesh ∉ data ∧ .settings ∉ data) (hv : .gfu ∈ data)
    (hinj : ∀ j k : ℕ, pyRoundDigits (tm.start + j * tm.step) tm.digit =
      pyRoundDigits (tm.start + k * tm.step) tm.digit → j = k)
    (ht : ∀ k : ℕ, 0 < k → tm.t ≠ pyRoundDigits (tm.start + k * tm.step) tm.digit)
    (hr : r ∣ n) :
    loadTransient (filesAfterRun data reassemble tm 1 tlRate levels gfu lev) tm r =
      .ok ((List.range (n / r)).map fun k : ℕ =>
        (pyRoundDigits (tm.start + ((k + 1) * r : ℕ) * tm.step) tm.digit, gfu ((k + 1) * r))) := by
  obtain ⟨c, rfl⟩ := hr
  have hr0 : 0 < r := Nat.pos_of_mul_pos_right hn0
  have hrq : (r : ℚ) ≠ 0 := by exact_mod_cast hr0.ne'
  rw [C10_replay_iff data reassemble tm 1 tlRate levels gfu lev (r * c) hn0 hstep hn hd hs hv hinj ht r hr0]
  have e : (((r * c : ℕ) : ℚ) / r) = (c : ℕ) := by push_cast; field_simp
  have e2 : (pyRound (((r * c : ℕ) : ℚ) / r)).toNat = c := by rw [e, pyRound_natCast]; rfl
  rw [e2, Nat.mul_div_cancel_left c hr0, if_pos]
  intro k hk
  refine ⟨?_, .inl (one_dvd _)⟩
  calc (k + 1) * r ≤ c * r := Nat.mul_le_mul_right r hk
    _ = r * c := Nat.mul_comm ..

/-- C10, concrete instance: ten steps of `1/10`, labelled with one digit, from time 0. -/
example : ∃ tm : Timer, tm.step ≠ 0 ∧ tm.stop - tm.start = (10 : ℕ) * tm.step ∧
    (∀ j k : ℕ, pyRoundDigits (tm.start + j * tm.step) tm.digit =
      pyRoundDigits (tm.start + k * tm.step) tm.digit → j = k) ∧
    ∀ k : ℕ, 0 < k → tm.t ≠ pyRoundDigits (tm.start + k * tm.step) tm.digit := by
  have e : ∀ k : ℕ, pyRoundDigits ((0 : ℚ) + k * (1 / 10)) 1 = k / 10 := by
    intro k
    rw [pyRoundDigits_of_multiple _ 1 (k : ℤ) (by push_cast; ring)]
    ring
  refine ⟨⟨0, 1, 1 / 10, 1, 0⟩, by norm_num, by norm_num, ?_, ?_⟩
  · intro j k h
    dsimp only at h
    rw [e, e] at h
    have : (j : ℚ) = k := by linarith
    exact_mod_cast this
  · intro k hk h
    dsimp only at h
    rw [e] at h
    have : (0 : ℚ) < k := by exact_mod_cast hk
    linarith

/-- **C59** Time levels can be restored at the label of step `it` exactly if `it` is a
multiple of the time level rate, or it is the last step and not a multiple of the rate;
what is restored are the levels after that step. -/
theorem C59_time_levels (hr : tm.run false 1 = .ok ts) (hne : ts ≠ []) (hd : data.Nodup)
    (hs : .ngsmesh ∉ data ∧ .settings ∉ data) (hv : .gfu ∈ data)
    (hnd : (ts.map Prod.snd).Nodup) (it : ℕ) (h : it < ts.length) :
    (tlRate ∣ it ∨ (it + 1 = ts.length ∧ ¬ rate ∣ it) →
      loadTimeLevels (filesAfterRun data reassemble tm rate tlRate levels gfu lev) levels ts[it].2 =
        .ok (levels.map fun fl => (fl, lev (it + 1) fl.1 fl.2))) ∧
    (¬ (tlRate ∣ it ∨ (it + 1 = ts.length ∧ ¬ rate ∣ it)) → tm.t ≠ ts[it].2 → levels ≠ [] →
      loadTimeLevels (filesAfterRun data reassemble tm rate tlRate levels gfu lev) levels ts[it].2 =
        .error .fileNotFound) := by
  obtain ⟨ws, e, _, h1⟩ := files_split data reassemble tm rate tlRate levels gfu lev ts hr hne hd hs hv
  unfold loadTimeLevels
  rw [e]
  constructor
  · intro hdue
    apply mapM_except_ok
    intro fl hfl
    rw [foldl_set_some _ ws _ (lev (it + 1) fl.1 fl.2)]
    · exact (h1 _ _ _ _).2 ⟨it, h, rfl, rfl, hfl, hdue⟩
    · intro v' hv'
      obtain ⟨it', h', e1, e2, _⟩ := (h1 _ _ _ _).1 hv'
      have := nodup_labels_inj ts hnd h h' e1
      subst this
      exact e2
  · intro hdue ht hlv
    obtain ⟨fl, rest, rfl⟩ := List.exists_cons_of_ne_nil hlv
    rw [List.mapM_cons, foldl_set_none, foldl_set_none]
    · rfl
    · intro w hw hk
      obtain ⟨k, v⟩ := w
      simp only at hk
      subst hk
      exact ht ((mem_gfuSave_level ..).1 hw).1.symm
    · intro w hw hk
      obtain ⟨k, v⟩ := w
      simp only at hk
      subst hk
      obtain ⟨it', h', e1, _, _, e3⟩ := (h1 _ _ _ _).1 hw
      have := nodup_labels_inj ts hnd h h' e1
      subst this
      exact hdue e3

/-- **C59** Consequence for the default rate 1: the time levels of the final state are
lost unless the last step happens to be a multiple of the time level rate. -/
theorem C59_final_levels_lost (hr : tm.run false 1 = .ok ts) (hd : data.Nodup)
    (hs : .ngsmesh ∉ data ∧ .settings ∉ data) (hv : .gfu ∈ data)
    (hnd : (ts.map Prod.snd).Nodup) (hlen : 0 < ts.length) (hlv : levels ≠ [])
    (ht : tm.t ≠ ts[ts.length - 1].2) (htl : ¬ tlRate ∣ ts.length - 1) :
    loadTimeLevels (filesAfterRun data reassemble tm 1 tlRate levels gfu lev) levels
      ts[ts.length - 1].2 = .error .fileNotFound :=
  (C59_time_levels data reassemble tm 1 tlRate levels gfu lev ts hr
    (List.length_pos_iff.1 hlen) hd hs hv hnd (ts.length - 1) (by omega)).2
    (by rintro (h | ⟨_, h⟩)
        · exact htl h
        · exact h (one_dvd _)) ht hlv

end

/-- Non-vacuity of the hypotheses of C10 and C59: ten steps with distinct labels, none of
them the initial time, more than the rate 4, last step not a multiple of 100. -/
example : ∃ tm : Timer, ∃ ts, tm.run false 1 = .ok ts ∧ ts.length = 10 ∧
    (ts.map Prod.snd).Nodup ∧ tm.t ∉ ts.map Prod.snd ∧ 4 < ts.length := by
  refine ⟨⟨0, 1, 1 / 10, 1, 0⟩, _, Timer.run_eq _ _ _ (by norm_num), ?_, ?_, ?_, ?_⟩ <;>
    decide +kernel

end Dream
