import Verif.Model.Frame
import Verif.Props.Sensors
import Verif.Props.Output

/-!
# C88: sensor tables read back
-/

noncomputable section

namespace Dream

variable {Pt : Type}

/-- The columns of the table of a sensor: location, field, component. -/
def SensorT.columns (S : SensorT Pt) : List (Loc Pt × SFieldT Pt × ℕ) :=
  Spec.columns S.locs S.fields fun f => if S.kind.isL2 then 1 else f.dims.prod

/-- The label of a component. -/
def SensorT.label (S : SensorT Pt) (f : SFieldT Pt) (i : ℕ) : String :=
  if S.kind.isL2 then "L2" else Spec.componentLabel f.dims i

/-- What is to be measured in the state after `n` updates: the value at a point, the integral over a
region, or the L2 norm over a region. -/
def SensorT.value (S : SensorT Pt) (integrate : (Pt → ℝ) → Name → ℝ) (n : ℕ) :
    Loc Pt × SFieldT Pt × ℕ → ℝ
  | (.point p, f, i) => f.val n p i
  | (.region r, f, i) =>
    if S.kind.isL2 then
      Real.sqrt (integrate (fun x => ((List.range f.dims.prod).map fun j => f.val n x j ^ 2).sum) r)
    else integrate (fun x => f.val n x i) r

/-- Points for point sensors, regions for the others. -/
def SensorT.WF (S : SensorT Pt) : Prop :=
  ∀ l ∈ S.locs, match l with
    | .point _ => S.kind = .point
    | .region _ => S.kind ≠ .point

theorem tableColumns_at (S : SensorT Pt) (n : ℕ) :
    tableColumns (S.at n) = S.columns.map fun c => (c.1, c.2.1.at n, c.2.2) := by
  unfold tableColumns SensorT.columns
  rw [map_columns]
  simp only [Spec.columns, SensorT.at, List.flatMap_map]
  rfl

theorem readCsv_table (n : ℕ) (cols : List (List (Cell Pt))) (tags : List (Cell Pt))
    (htags : tags.length = n) (hn : 0 < n) (hcols : ∀ c ∈ cols, c.length = n)
    (rows : List (Cell Pt × List (Cell Pt))) (hrows : ∀ r ∈ rows, r.2.length = cols.length)
    (heads : List (List (Cell Pt))) (hlen : heads.length = n)
    (hheads : ∀ k (hk : k < n), ∃ L, heads[k]? = some (tags[k]'(htags ▸ hk) :: L) ∧
      L.map some = cols.map fun c => c[k]?) :
    readCsv n (heads ++ rows.map fun r => r.1 :: r.2) = .ok
      { levels := tags.map some
        columns := cols.map fun c => c.map some
        index := rows.map fun r => some r.1
        rows := rows.map fun r => r.2.map some } := by
  have htake : (heads ++ rows.map fun r => r.1 :: r.2).take n = heads := by
    rw [← hlen, List.take_left']; rfl
  have hdrop : (heads ++ rows.map fun r => r.1 :: r.2).drop n = rows.map fun r => r.1 :: r.2 := by
    rw [← hlen, List.drop_left']; rfl
  have hall : ∀ h ∈ heads, h.length = cols.length + 1 := by
    intro h hh
    obtain ⟨k, hk, rfl⟩ := List.mem_iff_getElem.1 hh
    obtain ⟨L, this, hL⟩ := hheads k (hlen ▸ hk)
    rw [List.getElem?_eq_getElem hk] at this
    rw [Option.some.inj this]
    simpa using congrArg List.length hL
  have hwidth : (heads.headD []).length = cols.length + 1 := by
    cases heads with
    | nil => simp at hlen; omega
    | cons a l => exact hall a (by simp)
  unfold readCsv
  simp only [htake, hdrop, hwidth]
  rw [if_neg (by omega), if_neg, if_neg]
  · congr 1
    have e1 : (heads.map fun r => r[0]?) = tags.map some := by
      apply List.ext_getElem
      · simp [hlen, htags]
      · intro k h1 h2
        simp only [List.length_map] at h1 h2
        obtain ⟨L, this, -⟩ := hheads k (hlen ▸ h1)
        rw [List.getElem?_eq_getElem h1] at this
        simp [Option.some.inj this]
    have e2 : ((List.range (cols.length + 1 - 1)).map fun j => heads.map fun r => r[j + 1]?)
        = cols.map fun c => c.map some := by
      apply List.ext_getElem
      · simp
      · intro j h1 h2
        simp only [List.length_map, List.length_range, Nat.add_sub_cancel] at h1 h2
        simp only [List.getElem_map, List.getElem_range]
        apply List.ext_getElem
        · simp [hlen, hcols _ (List.getElem_mem h2)]
        · intro k h3 h4
          simp only [List.length_map] at h3
          obtain ⟨L, this, hL⟩ := hheads k (hlen ▸ h3)
          rw [List.getElem?_eq_getElem h3] at this
          simp only [List.getElem_map, Option.some.inj this, List.getElem?_cons_succ]
          have hj : (L.map some)[j]? = (cols.map fun c => c[k]?)[j]? := by rw [hL]
          rw [List.getElem?_map, List.getElem?_map, List.getElem?_eq_getElem h2] at hj
          have h5 : k < cols[j].length := by simpa using h4
          simp only [Option.map_some, List.getElem?_eq_getElem h5] at hj
          cases hq : L[j]? with
          | none => rw [hq] at hj; simp at hj
          | some v => rw [hq] at hj; simpa using hj
    have e3 : ((rows.map fun r => r.1 :: r.2).map fun r => r[0]?) = rows.map fun r => some r.1 := by
      simp [Function.comp_def]
    have e4 : ((rows.map fun r => r.1 :: r.2).map fun r =>
        (List.range (cols.length + 1 - 1)).map fun j => r[j + 1]?)
        = rows.map fun r => r.2.map some := by
      rw [List.map_map]
      refine List.map_congr_left fun r hr => ?_
      simp only [Function.comp_apply, List.getElem?_cons_succ, Nat.add_sub_cancel]
      apply List.ext_getElem
      · simp [hrows r hr]
      · intro k h1 h2
        simp only [List.length_map] at h2
        simp [List.getElem?_eq_getElem h2]
    rw [e1, e2, e3, e4]
  · simp only [List.any_map, List.any_eq_true, Function.comp_apply, List.length_cons,
      decide_eq_true_eq, not_exists, not_and, not_lt]
    intro r hr
    rw [hrows r hr]
  · simp only [List.any_eq_true, ne_eq, decide_eq_true_eq, not_exists, not_and, not_not]
    exact hall

/-- The table that belongs to a list of measurements: the times and, for each of them, what each
column is to show. -/
def tableOf (S : SensorT Pt) (rows : List (ℝ × (Loc Pt × SFieldT Pt × ℕ → ℝ))) : Frame Pt where
  levels := [some (Cell.text (if S.kind = .point then "point" else "region")),
    some (Cell.text "field"), some (Cell.text "component"), some (Cell.text "t")]
  columns := S.columns.map fun c => [some (Cell.loc c.1), some (Cell.text c.2.1.name),
    some (Cell.text (S.label c.2.1 c.2.2)), some (Cell.text " ")]
  index := rows.map fun r => some (Cell.time r.1)
  rows := rows.map fun r => S.columns.map fun c => some (Cell.num (r.2 c))

theorem header_at (S : SensorT Pt)
    (hs : S.kind.isL2 = false → ∀ f ∈ S.fields, GoodShape f.dims) :
    streamHeader false (S.at 0) = .ok
      [(if S.kind = .point then "point" else "region", S.columns.map fun c => Cell.loc c.1),
       ("field", S.columns.map fun c => Cell.text c.2.1.name),
       ("component", S.columns.map fun c => Cell.text (S.label c.2.1 c.2.2)),
       ("t", S.columns.map fun _ => Cell.text " ")] := by
  rw [C11_header_partial (S.at 0) (by
    intro hk f hf
    obtain ⟨g, hg, rfl⟩ := List.mem_map.1 hf
    exact hs hk g hg)]
  simp only [tableColumns_at, List.map_map, Function.comp_def]
  rfl

theorem measure_at (S : SensorT Pt) (hw : S.WF) (integrate : (Pt → ℝ) → Name → ℝ)
    (scalarIntegral : Bool) (n : ℕ) (data : List ℝ)
    (hdata : (S.at n).measure integrate scalarIntegral = .ok data) :
    data = S.columns.map (S.value integrate n) := by
  rw [C11_data (S.at n) hw] at hdata
  split_ifs at hdata
  rw [← Except.ok.inj hdata, tableColumns_at, List.map_map]
  refine List.map_congr_left fun c _ => ?_
  obtain ⟨l, f, i⟩ := c
  cases l <;> rfl

theorem load_table (S : SensorT Pt) (rows : List (ℝ × (Loc Pt × SFieldT Pt × ℕ → ℝ))) :
    loadAsDataframe (headerRows
      [(if S.kind = .point then "point" else "region", S.columns.map fun c => Cell.loc c.1),
       ("field", S.columns.map fun c => Cell.text c.2.1.name),
       ("component", S.columns.map fun c => Cell.text (S.label c.2.1 c.2.2)),
       ("t", S.columns.map fun _ => Cell.text " ")] ++
      rows.map fun r => dataRow (some r.1) (S.columns.map r.2)) = .ok (tableOf S rows) := by
  have key := readCsv_table (Pt := Pt) 4
    (S.columns.map fun c => [Cell.loc c.1, Cell.text c.2.1.name,
      Cell.text (S.label c.2.1 c.2.2), Cell.text " "])
    [Cell.text (if S.kind = .point then "point" else "region"), Cell.text "field",
      Cell.text "component", Cell.text "t"] rfl (by norm_num)
    (by intro c hc; obtain ⟨_, _, rfl⟩ := List.mem_map.1 hc; rfl)
    (rows.map fun r => (Cell.time r.1, S.columns.map fun c => Cell.num (r.2 c)))
    (by intro r hr; obtain ⟨_, _, rfl⟩ := List.mem_map.1 hr; simp)
    (headerRows [(if S.kind = .point then "point" else "region",
        S.columns.map fun c => Cell.loc c.1),
      ("field", S.columns.map fun c => Cell.text c.2.1.name),
      ("component", S.columns.map fun c => Cell.text (S.label c.2.1 c.2.2)),
      ("t", S.columns.map fun _ => Cell.text " ")]) rfl
    (by
      intro k hk
      interval_cases k <;> refine ⟨_, rfl, ?_⟩ <;> rw [List.map_map, List.map_map] <;> rfl)
  simp only [List.map_map, Function.comp_def] at key
  unfold loadAsDataframe tableOf
  simp only [List.map_cons, List.map_nil] at key
  rw [← key]
  congr 2
  refine List.map_congr_left fun x _ => ?_
  simp [dataRow]

/-- **C88** The table of a sensor in a transient run, read back with the default arguments: one row
for every record of the schedule of C08, indexed by its time, and one column for every location,
field and component, with the value of that component at that location in that state. Missing:
matrices that are not 2x2, 3x3 and have at most nine entries (`C11_header_partial`), and stationary
computations (`C88_fails_stationary`). -/
theorem C88_read_back_partial (S : SensorT Pt) (hw : S.WF)
    (hs : S.kind.isL2 = false → ∀ f ∈ S.fields, GoodShape f.dims)
    (integrate : (Pt → ℝ) → Name → ℝ) (scalarIntegral : Bool) (data : ℕ → List ℝ)
    (hdata : ∀ n, (S.at n).measure integrate scalarIntegral = .ok (data n))
    (streams : List SKind) (hd : streams.Nodup) (hsg : .ngsmesh ∉ streams ∧ .settings ∉ streams)
    (hv : .sensor ∈ streams) (reassemble : Bool) (tm : Timer) (ts : List (ℚ × ℚ))
    (hr : tm.run false 1 = .ok ts) (hne : ts ≠ []) :
    ∃ h, streamHeader false (S.at 0) = .ok h ∧
      loadAsDataframe (sensorLines h data (records (sensorHooks S.rate) .sensor 0
        (transientRoutine quiet streams reassemble tm).trace)) = .ok
      { levels := [some (Cell.text (if S.kind = .point then "point" else "region")),
          some (Cell.text "field"), some (Cell.text "component"), some (Cell.text "t")]
        columns := S.columns.map fun c => [some (Cell.loc c.1), some (Cell.text c.2.1.name),
          some (Cell.text (S.label c.2.1 c.2.2)), some (Cell.text " ")]
        index := (Spec.schedule (ts.map Prod.snd) tm.t S.rate).map fun x => some (Cell.time x.1)
        rows := (Spec.schedule (ts.map Prod.snd) tm.t S.rate).map fun x =>
          S.columns.map fun c => some (Cell.num (S.value integrate x.2 c)) } := by
  refine ⟨_, header_at S hs, ?_⟩
  rw [(C08_sensor streams reassemble tm S.rate ts hr hne hd hsg hv).2]
  have key := load_table S ((Spec.schedule (ts.map Prod.snd) tm.t S.rate).map fun x =>
    ((x.1 : ℝ), S.value integrate x.2))
  unfold tableOf at key
  simp only [List.map_map, Function.comp_def] at key
  rw [← key]
  unfold sensorLines
  congr 2
  rw [List.map_map]
  refine List.map_congr_left fun x _ => ?_
  simp only [Function.comp_apply, measure_at S hw integrate scalarIntegral x.2 _ (hdata x.2)]
  rfl

theorem readCsv_append (n : ℕ) (heads r1 r2 : List (List (Cell Pt))) (hn : heads.length = n)
    (F F' : Frame Pt) (h1 : readCsv n (heads ++ r1) = .ok F) (h2 : readCsv n (heads ++ r2) = .ok F') :
    F.columns = F'.columns ∧ readCsv n (heads ++ r1 ++ r2) =
      .ok { F with index := F.index ++ F'.index, rows := F.rows ++ F'.rows } := by
  unfold readCsv at h1 h2 ⊢
  rw [List.append_assoc]
  simp only [← hn, List.take_left', List.drop_left'] at h1 h2 ⊢
  split_ifs at h1 h2 with ha hb hc hd
  rw [if_neg ha, if_neg hb, if_neg]
  · rw [← Except.ok.inj h1, ← Except.ok.inj h2]
    simp
  · simp only [List.any_append, Bool.or_eq_true, not_or]
    exact ⟨hc, hd⟩

/-- The columns as far as the header shows them. -/
theorem columns_shape (S S' : SensorT Pt) (hk : S'.kind = S.kind) (hl : S'.locs = S.locs)
    (hf : S'.fields.map (fun f => (f.name, f.dims)) = S.fields.map fun f => (f.name, f.dims)) :
    S'.columns.map (fun c => (c.1, c.2.1.name, c.2.1.dims, c.2.2)) =
      S.columns.map fun c => (c.1, c.2.1.name, c.2.1.dims, c.2.2) := by
  have gen : ∀ R : SensorT Pt, R.columns.map (fun c => (c.1, c.2.1.name, c.2.1.dims, c.2.2)) =
      (Spec.columns R.locs (R.fields.map fun f => (f.name, f.dims)) fun d =>
        if R.kind.isL2 then 1 else d.2.prod).map fun c => (c.1, c.2.1.1, c.2.1.2, c.2.2) := by
    intro R
    simp [SensorT.columns, Spec.columns, List.map_flatMap, List.flatMap_map, Function.comp_def]
  rw [gen, gen, hk, hl, hf]

/-- **C88, appending** If a second run of the same sensor appends to the file (mode `a`, no second
header), the table read back has the rows of the first run and then those of the second, under the
same columns. -/
theorem C88_appended_partial (S : SensorT Pt) (hw : S.WF)
    (hs : S.kind.isL2 = false → ∀ f ∈ S.fields, GoodShape f.dims)
    (S' : SensorT Pt) (hw' : S'.WF) (hk : S'.kind = S.kind) (hl : S'.locs = S.locs)
    (hf : S'.fields.map (fun f => (f.name, f.dims)) = S.fields.map fun f => (f.name, f.dims))
    (integrate : (Pt → ℝ) → Name → ℝ) (scalarIntegral : Bool) (data data' : ℕ → List ℝ)
    (hdata : ∀ n, (S.at n).measure integrate scalarIntegral = .ok (data n))
    (hdata' : ∀ n, (S'.at n).measure integrate scalarIntegral = .ok (data' n))
    (rs rs' : List (ℚ × ℕ)) :
    ∃ h F F', streamHeader false (S.at 0) = .ok h ∧ streamHeader false (S'.at 0) = .ok h ∧
      loadAsDataframe (sensorLines h data (rs.map fun x => (some x.1, x.2))) = .ok F ∧
      loadAsDataframe (sensorLines h data' (rs'.map fun x => (some x.1, x.2))) = .ok F' ∧
      F.columns = F'.columns ∧
      loadAsDataframe (sensorLines h data (rs.map fun x => (some x.1, x.2)) ++
        rs'.map fun x => dataRow (some (x.1 : ℝ)) (data' x.2)) =
        .ok { F with index := F.index ++ F'.index, rows := F.rows ++ F'.rows } := by
  have hsh := columns_shape S S' hk hl hf
  have hhead : streamHeader false (S'.at 0) = streamHeader false (S.at 0) := by
    have hs' : S'.kind.isL2 = false → ∀ f ∈ S'.fields, GoodShape f.dims := by
      intro h2 f hf'
      have : (f.name, f.dims) ∈ S.fields.map fun f => (f.name, f.dims) := by
        rw [← hf]; exact List.mem_map.2 ⟨f, hf', rfl⟩
      obtain ⟨g, hg, e⟩ := List.mem_map.1 this
      have e2 : g.dims = f.dims := congrArg Prod.snd e
      rw [← e2]
      exact hs (hk ▸ h2) g hg
    rw [header_at S hs, header_at S' hs', hk]
    have e1 := congrArg (List.map fun c => Cell.loc c.1) hsh
    have e2 := congrArg (List.map fun c => (Cell.text c.2.1 : Cell Pt)) hsh
    have e3 := congrArg (List.map fun c => (Cell.text
      (if S.kind.isL2 then "L2" else Spec.componentLabel c.2.2.1 c.2.2.2) : Cell Pt)) hsh
    have e4 := congrArg (List.map fun _ => (Cell.text " " : Cell Pt)) hsh
    simp only [List.map_map, Function.comp_def] at e1 e2 e3 e4
    simp only [SensorT.label, hk]
    rw [e1, e2, e3, e4]
  have hload : ∀ (R : SensorT Pt) (hR : R.WF) (d : ℕ → List ℝ)
      (hd : ∀ n, (R.at n).measure integrate scalarIntegral = .ok (d n)) (q : List (ℚ × ℕ)),
      q.map (fun x => dataRow (some (x.1 : ℝ)) (d x.2)) =
        (q.map fun x => ((x.1 : ℝ), R.value integrate x.2)).map fun r =>
          (dataRow (some r.1) (R.columns.map r.2) : List (Cell Pt)) := by
    intro R hR d hd q
    rw [List.map_map]
    refine List.map_congr_left fun x _ => ?_
    simp only [Function.comp_apply, measure_at R hR integrate scalarIntegral x.2 _ (hd x.2)]
  have hs' : S'.kind.isL2 = false → ∀ f ∈ S'.fields, GoodShape f.dims := by
    intro h2 f hf'
    have : (f.name, f.dims) ∈ S.fields.map fun f => (f.name, f.dims) := by
      rw [← hf]; exact List.mem_map.2 ⟨f, hf', rfl⟩
    obtain ⟨g, hg, e⟩ := List.mem_map.1 this
    have e2 : g.dims = f.dims := congrArg Prod.snd e
    rw [← e2]
    exact hs (hk ▸ h2) g hg
  have hq : ∀ (h : List (String × List (Cell Pt))) (d : ℕ → List ℝ) (q : List (ℚ × ℕ)),
      sensorLines h d (q.map fun x => (some x.1, x.2)) =
        headerRows h ++ q.map fun x => dataRow (some (x.1 : ℝ)) (d x.2) := by
    intro h d q
    simp [sensorLines, Function.comp_def]
  have l1 := load_table S (rs.map fun x => ((x.1 : ℝ), S.value integrate x.2))
  have l2 := load_table S' (rs'.map fun x => ((x.1 : ℝ), S'.value integrate x.2))
  rw [← hload S hw data hdata] at l1
  rw [← hload S' hw' data' hdata'] at l2
  have hEq := (header_at S' hs').symm.trans (hhead.trans (header_at S hs))
  rw [Except.ok.inj hEq] at l2
  have app := readCsv_append 4 _ _ _ rfl _ _ l1 l2
  refine ⟨_, _, _, header_at S hs, hhead.trans (header_at S hs), ?_, ?_, app.1, ?_⟩
  · rw [hq]; exact l1
  · rw [hq]; exact l2
  · rw [hq]; exact app.2

theorem header_stationary (s : Sensor Pt)
    (hs : s.kind.isL2 = false → ∀ f ∈ s.fields, GoodShape f.dims) :
    streamHeader true s = .ok
      [(if s.kind = .point then "point" else "region", (tableColumns s).map fun c => Cell.loc c.1),
       ("field", (tableColumns s).map fun c => Cell.text c.2.1.name),
       ("component", (tableColumns s).map fun c => Cell.text (labelOf s c.2.1 c.2.2))] := by
  have h0 := C11_header_partial s hs
  unfold streamHeader at h0 ⊢
  simp only [Bool.false_eq_true, if_false] at h0
  simp only [if_true]
  by_cases hc : (s.getHeader.any fun kv =>
      decide (kv.2.length ≠ ((Dict.get? s.getHeader "field").getD []).length)) = true
  · rw [if_pos hc] at h0; cases h0
  · rw [if_neg hc] at h0 ⊢
    have h1 := Except.ok.inj h0
    have := congrArg (List.take 3) h1
    have hlen : s.getHeader.length = 3 := rfl
    rw [List.take_left' hlen] at this
    rw [this]
    rfl

/-- **C88 fails** in stationary computations: whatever the sensor has recorded, the file cannot be
read back with the default arguments. -/
theorem C88_fails_stationary (S : SensorT Pt) (hw : S.WF)
    (hs : S.kind.isL2 = false → ∀ f ∈ S.fields, GoodShape f.dims)
    (integrate : (Pt → ℝ) → Name → ℝ) (scalarIntegral : Bool) (data : ℕ → List ℝ)
    (hdata : ∀ n, (S.at n).measure integrate scalarIntegral = .ok (data n)) (ns : List ℕ) :
    ∃ h, streamHeader true (S.at 0) = .ok h ∧
      loadAsDataframe (sensorLines h data (ns.map fun n => (none, n))) = .error .valueError := by
  refine ⟨_, header_stationary (S.at 0) ?_, ?_⟩
  · intro hk f hf
    obtain ⟨g, hg, rfl⟩ := List.mem_map.1 hf
    exact hs hk g hg
  · cases ns with
    | nil => rfl
    | cons n ns =>
      have hd := measure_at S hw integrate scalarIntegral n _ (hdata n)
      simp [loadAsDataframe, readCsv, sensorLines, headerRows, dataRow, hd, tableColumns_at]

/-- **C88 fails** when the missing header line is taken into account (`header=[0, 1, 2]`): the first
value of every row becomes its index, and every column shows the value of the next one, the last
nothing at all. -/
theorem C88_fails_shift (S : SensorT Pt) (hw : S.WF)
    (hs : S.kind.isL2 = false → ∀ f ∈ S.fields, GoodShape f.dims)
    (integrate : (Pt → ℝ) → Name → ℝ) (scalarIntegral : Bool) (data : ℕ → List ℝ)
    (hdata : ∀ n, (S.at n).measure integrate scalarIntegral = .ok (data n)) (ns : List ℕ)
    (c : Loc Pt × SFieldT Pt × ℕ) (cs : List (Loc Pt × SFieldT Pt × ℕ)) (hc : S.columns = c :: cs) :
    ∃ h F, streamHeader true (S.at 0) = .ok h ∧
      readCsv 3 (sensorLines h data (ns.map fun n => (none, n))) = .ok F ∧
      F.columns = (c :: cs).map (fun c => [some (Cell.loc c.1), some (Cell.text c.2.1.name),
        some (Cell.text (S.label c.2.1 c.2.2))]) ∧
      F.index = ns.map (fun n => some (Cell.num (S.value integrate n c))) ∧
      F.rows = ns.map fun n => (cs.map fun c => some (Cell.num (S.value integrate n c))) ++ [none] := by
  have hT : ∀ {γ : Type} (g : Loc Pt × SField Pt × ℕ → γ), (tableColumns (S.at 0)).map g =
      g (c.1, c.2.1.at 0, c.2.2) :: cs.map fun c => g (c.1, c.2.1.at 0, c.2.2) := by
    intro γ g
    rw [tableColumns_at, hc]
    simp [Function.comp_def]
  have hd : ∀ n, data n = S.value integrate n c :: cs.map (S.value integrate n) := by
    intro n
    rw [measure_at S hw integrate scalarIntegral n _ (hdata n), hc]
    rfl
  have hrow : ∀ n, (dataRow none (data n) : List (Cell Pt)) =
      Cell.num (S.value integrate n c) :: cs.map fun c => Cell.num (S.value integrate n c) := by
    intro n
    simp [dataRow, hd, Function.comp_def]
  have hlines : (ns.map fun n => ((none : Option ℚ), n)).map (fun r =>
      (dataRow (r.1.map fun t => (t : ℝ)) (data r.2) : List (Cell Pt))) =
      ns.map fun n => Cell.num (S.value integrate n c) ::
        cs.map fun c => Cell.num (S.value integrate n c) := by
    rw [List.map_map]
    exact List.map_congr_left fun n _ => hrow n
  have hidx : ∀ {γ : Type} (a : γ) (l : List γ), (List.range (l.length + 1)).map
      (fun j => (a :: l)[j]?) = (a :: l).map some := by
    intro γ a l
    apply List.ext_getElem
    · simp
    · intro k h1 h2
      simp only [List.length_map, List.length_cons] at h2
      simp only [List.getElem_map, List.getElem_range]
      exact List.getElem?_eq_getElem _
  have hidx' : ∀ {γ : Type} (l : List γ), (List.range (l.length + 1)).map
      (fun j => l[j]?) = l.map some ++ [none] := by
    intro γ l
    rw [List.range_succ, List.map_append]
    congr 1
    · apply List.ext_getElem
      · simp
      · intro k h1 h2
        simp only [List.length_map] at h2
        simp [List.getElem?_eq_getElem h2]
    · simp
  refine ⟨_,
    { levels := [some (Cell.text (if S.kind = .point then "point" else "region")),
        some (Cell.text "field"), some (Cell.text "component")]
      columns := (c :: cs).map (fun c => [some (Cell.loc c.1), some (Cell.text c.2.1.name),
        some (Cell.text (S.label c.2.1 c.2.2))])
      index := ns.map (fun n => some (Cell.num (S.value integrate n c)))
      rows := ns.map fun n => (cs.map fun c => some (Cell.num (S.value integrate n c))) ++ [none] }, header_stationary (S.at 0) ?_, ?_, rfl, rfl, rfl⟩
  · intro hk f hf
    obtain ⟨g, hg, rfl⟩ := List.mem_map.1 hf
    exact hs hk g hg
  · unfold readCsv sensorLines
    rw [hlines]
    simp only [headerRows, hT, List.map_cons, List.map_nil]
    have t3 : ∀ (x y z : List (Cell Pt)) (l : List (List (Cell Pt))),
        ([x, y, z] ++ l).take 3 = [x, y, z] ∧ ([x, y, z] ++ l).drop 3 = l := fun _ _ _ _ => ⟨rfl, rfl⟩
    rw [(t3 _ _ _ _).1, (t3 _ _ _ _).2]
    rw [if_neg (by simp), if_neg (by simp), if_neg (by simp)]
    congr 1
    simp only [List.headD_cons, List.length_cons, List.length_map, Nat.add_sub_cancel,
      List.map_cons, List.map_nil, List.getElem?_cons_zero, List.getElem?_cons_succ, List.map_map]
    congr 1
    · have e := hidx c cs
      have := congrArg (List.map fun o : Option (Loc Pt × SFieldT Pt × ℕ) =>
        [o.map fun c => (Cell.loc c.1 : Cell Pt), o.map fun c => Cell.text c.2.1.name,
          o.map fun c => Cell.text (S.label c.2.1 c.2.2)]) e
      rw [List.map_map, List.map_map] at this
      refine Eq.trans ?_ (this.trans rfl)
      refine List.map_congr_left fun j _ => ?_
      cases j with
      | zero => rfl
      | succ j => simp [SensorT.label, labelOf, SensorT.at, SFieldT.at]; rfl
    · refine List.map_congr_left fun n _ => ?_
      have e := hidx' (cs.map fun c => (Cell.num (S.value integrate n c) : Cell Pt))
      rw [List.length_map, List.map_map] at e
      exact e

/-- A point sensor for pressure and velocity at two points, with values that change from step to
step. -/
def demoSensor : SensorT ℕ where
  kind := .point
  name := "a"
  rate := 2
  fields := [{ name := "p", dims := [], val := fun n x _ => x + n },
    { name := "u", dims := [2], val := fun n x i => x + n * i }]
  locs := [.point 0, .point 1]

/-- Non-vacuity: the hypotheses of C88 for `demoSensor` in a run over `[0, 1]` with ten steps. -/
example : demoSensor.WF ∧ (∀ f ∈ demoSensor.fields, GoodShape f.dims) ∧
    demoSensor.columns.length = 6 ∧
    (∀ n, (demoSensor.at n).measure (fun _ _ => 0) true =
      .ok (demoSensor.columns.map (demoSensor.value (fun _ _ => 0) n))) ∧
    ∃ tm : Timer, ∃ ts, tm.run false 1 = .ok ts ∧ ts.length = 10 := by
  have hw : demoSensor.WF := by
    intro l hl
    simp only [demoSensor, List.mem_cons, List.not_mem_nil, or_false] at hl
    rcases hl with rfl | rfl <;> rfl
  refine ⟨hw, ?_, rfl, ?_, ⟨0, 1, 1 / 10, 1, 0⟩, _, Timer.run_eq _ _ _ (by norm_num), ?_⟩
  · intro f hf
    simp only [demoSensor, List.mem_cons, List.not_mem_nil, or_false] at hf
    rcases hf with rfl | rfl <;> intro h <;> simp at h
  · intro n
    rw [C11_data (demoSensor.at n) hw, if_neg (by simp [SensorT.at, demoSensor]), tableColumns_at, List.map_map]
    rfl
  · decide +kernel

end Dream
