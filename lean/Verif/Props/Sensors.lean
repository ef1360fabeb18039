import Verif.Model.Sensors
import Verif.Spec.Sensors
import Verif.Lemmas.Dict
import Mathlib.Data.List.Nodup
import Mathlib.Tactic.NormNum
import Mathlib.Tactic.IntervalCases
import Mathlib.Tactic.Push
import Mathlib.Algebra.BigOperators.Group.List.Lemmas

/-!
# C11, C51: sensor tables and sensor files
-/

namespace Dream

variable {Pt : Type}

/-! ## Lists -/

theorem flatMap_replicate_append {α β : Type} (locs : List α) (l : List β) :
    (locs.flatMap fun _ => l) = repeatList locs.length l := by
  induction locs with
  | nil => rfl
  | cons a t ih => simp only [List.flatMap_cons, ih, repeatList, List.length_cons,
      List.replicate_succ, List.flatten_cons]

theorem map_columns {L F γ : Type} (locs : List L) (fields : List F) (dim : F → ℕ)
    (g : L × F × ℕ → γ) : (Spec.columns locs fields dim).map g =
      locs.flatMap fun l => fields.flatMap fun f => (List.range (dim f)).map fun i => g (l, f, i) := by
  simp [Spec.columns, List.map_flatMap, Function.comp_def]

theorem length_columns {L F : Type} (locs : List L) (fields : List F) (dim : F → ℕ) :
    (Spec.columns locs fields dim).length = locs.length * (fields.map dim).sum := by
  simp [Spec.columns, List.length_flatMap]

theorem map_range_const {γ : Type} (n : ℕ) (c : γ) :
    ((List.range n).map fun _ => c) = List.replicate n c := by
  apply List.ext_getElem <;> simp

/-! ## C11 -/

/-- The shapes whose labels are right: everything but small matrices other than 2x2 and
3x3. -/
def GoodShape (dims : List ℕ) : Prop :=
  dims.length = 2 → dims = [2, 2] ∨ dims = [3, 3] ∨ 9 < dims.prod

/-- For good shapes the component names are the labels. -/
theorem componentNames_good (f : SField Pt) (h : GoodShape f.dims) :
    componentNames false f = (List.range f.dim).map (Spec.componentLabel f.dims) := by
  obtain ⟨name, dims, val⟩ := f
  unfold componentNames SField.dim Spec.componentLabel
  simp only [Bool.false_eq_true, if_false]
  match dims, h with
  | [], _ => simp
  | [n], _ =>
    by_cases hn : n ≤ 3
    · simp only [List.length_singleton, List.prod_singleton, hn, and_self, if_true,
        reduceCtorEq, if_false]
      interval_cases n <;> rfl
    · simp [hn]
  | [n, m], h =>
    rcases h rfl with h | h | h
    · simp only [List.cons.injEq, and_true] at h
      obtain ⟨rfl, rfl⟩ := h
      rfl
    · simp only [List.cons.injEq, and_true] at h
      obtain ⟨rfl, rfl⟩ := h
      rfl
    · have h' : ¬ n * m ≤ 9 := by simpa using h
      simp [h']
  | a :: b :: c :: t, _ => simp

/-- Badly shaped fields have too many component names, unless they have nine entries. -/
theorem componentNames_length (f : SField Pt) :
    (componentNames false f).length =
      if f.dims.length = 2 ∧ f.dim ≤ 9 ∧ f.dims ≠ [2, 2] then 9 else f.dim := by
  obtain ⟨name, dims, val⟩ := f
  unfold componentNames SField.dim
  simp only [Bool.false_eq_true, if_false]
  match dims with
  | [] => simp
  | [n] =>
    by_cases hn : n ≤ 3
    · simp [hn]
    · simp [hn]
  | [n, m] =>
    by_cases h9 : n * m ≤ 9
    · by_cases h2 : ([n, m] : List ℕ) = [2, 2]
      · simp only [List.cons.injEq, and_true] at h2
        obtain ⟨rfl, rfl⟩ := h2
        simp
      · simp only [List.length_cons, List.length_nil, List.prod_cons, List.prod_nil, mul_one, h9, h2,
          reduceCtorEq, if_false, ne_eq, not_false_eq_true, and_self, if_true]
        norm_num
    · simp [h9]
  | a :: b :: c :: t => simp

/-- The number of columns a field takes. -/
def columnsOf (s : Sensor Pt) (f : SField Pt) : ℕ := if s.kind.isL2 then 1 else f.dims.prod

/-- What the header announces as component. -/
def labelOf (s : Sensor Pt) (f : SField Pt) (i : ℕ) : String :=
  if s.kind.isL2 then "L2" else Spec.componentLabel f.dims i

/-- What is to be measured: the value at a point, the integral over a region, or the
L2 norm over a region. -/
noncomputable def valueOf (s : Sensor Pt) (integrate : (Pt → ℝ) → Name → ℝ) :
    Loc Pt → SField Pt → ℕ → ℝ
  | .point p, f, i => f.val p i
  | .region r, f, i =>
    if s.kind.isL2 then
      Real.sqrt (integrate (fun x => ((List.range f.dims.prod).map fun j => f.val x j ^ 2).sum) r)
    else integrate (fun x => f.val x i) r

/-- The columns of the table of a sensor. -/
def tableColumns (s : Sensor Pt) : List (Loc Pt × SField Pt × ℕ) :=
  Spec.columns s.locs s.fields (columnsOf s)

theorem compoundDim_eq (s : Sensor Pt) :
    compoundDim s.openFields = (s.fields.map (columnsOf s)).sum := by
  unfold compoundDim Sensor.openFields columnsOf
  cases s.kind.isL2
  · rfl
  · simp only [if_true, List.map_map]
    congr 1

theorem baseHeader_field (s : Sensor Pt) : (baseHeader s.kind.isL2 s.openFields).1 =
    s.fields.flatMap fun f => (List.range (columnsOf s f)).map fun _ => f.name := by
  unfold baseHeader Sensor.openFields columnsOf
  cases s.kind.isL2
  · simp only [Bool.false_eq_true, if_false, map_range_const]; rfl
  · simp only [if_true, map_range_const, List.flatMap_map]; rfl

theorem baseHeader_component (s : Sensor Pt)
    (h : s.kind.isL2 = false → ∀ f ∈ s.fields, GoodShape f.dims) :
    (baseHeader s.kind.isL2 s.openFields).2 =
      s.fields.flatMap fun f => (List.range (columnsOf s f)).map (labelOf s f) := by
  unfold baseHeader Sensor.openFields columnsOf labelOf
  cases hk : s.kind.isL2
  · simp only [Bool.false_eq_true, if_false]
    have : ∀ fs : List (SField Pt), (∀ f ∈ fs, GoodShape f.dims) →
        (fs.flatMap fun f => componentNames false f) =
          fs.flatMap fun f => (List.range f.dims.prod).map fun i => Spec.componentLabel f.dims i := by
      intro fs hfs
      induction fs with
      | nil => rfl
      | cons a t ih =>
        rw [List.flatMap_cons, List.flatMap_cons, componentNames_good a (hfs a (by simp)),
          ih fun f hf => hfs f (by simp [hf])]
        rfl
    exact this _ (h hk)
  · simp only [if_true, List.flatMap_map, componentNames]
    rfl

/-- **C11** The header of a sensor in a transient run announces, column by column, the
location, the field and the component of `tableColumns`. Fields that are matrices must be 2x2,
3x3 or have more than nine entries. -/
theorem C11_header_partial (s : Sensor Pt)
    (hs : s.kind.isL2 = false → ∀ f ∈ s.fields, GoodShape f.dims) :
    streamHeader false s = .ok
      [(if s.kind = .point then "point" else "region",
          (tableColumns s).map fun c => Cell.loc c.1),
       ("field", (tableColumns s).map fun c => Cell.text c.2.1.name),
       ("component", (tableColumns s).map fun c => Cell.text (labelOf s c.2.1 c.2.2)),
       ("t", (tableColumns s).map fun _ => Cell.text " ")] := by
  have e1 : (s.locs.flatMap fun l => List.replicate (compoundDim s.openFields) (Cell.loc l)) =
      (tableColumns s).map fun c => Cell.loc c.1 := by
    unfold tableColumns
    rw [map_columns, compoundDim_eq]
    congr 1
    funext l
    have : ∀ fs : List (SField Pt), List.replicate (fs.map (columnsOf s)).sum (Cell.loc l) =
        fs.flatMap fun f => (List.range (columnsOf s f)).map fun _ => Cell.loc l := by
      intro fs
      induction fs with
      | nil => rfl
      | cons a t ih =>
        rw [List.map_cons, List.sum_cons, List.replicate_add, ih, List.flatMap_cons,
          map_range_const]
    exact this _
  have e2 : repeatList s.locs.length ((baseHeader s.kind.isL2 s.openFields).1.map Cell.text) =
      (tableColumns s).map fun c => (Cell.text c.2.1.name : Cell Pt) := by
    unfold tableColumns
    rw [map_columns, ← flatMap_replicate_append, baseHeader_field]
    simp only [List.map_flatMap, List.map_map]
    rfl
  have e3 : repeatList s.locs.length ((baseHeader s.kind.isL2 s.openFields).2.map Cell.text) =
      (tableColumns s).map fun c => (Cell.text (labelOf s c.2.1 c.2.2) : Cell Pt) := by
    unfold tableColumns
    rw [map_columns, ← flatMap_replicate_append, baseHeader_component s hs]
    simp only [List.map_flatMap, List.map_map]
    rfl
  unfold streamHeader Sensor.getHeader
  simp only [e1, e2, e3]
  have hn : ∀ k : String, k = "point" ∨ k = "region" → ¬ k = "field" := by
    rintro k (rfl | rfl) <;> decide
  have hk : ¬ (if s.kind = .point then "point" else "region") = "field" := by
    apply hn; split_ifs <;> simp
  simp only [Dict.get?, List.find?_cons, hk, decide_false, decide_true, Option.map_some,
    Option.getD_some, List.length_map, ne_eq, not_true_eq_false, List.any_cons, List.any_nil,
    Bool.or_self, Bool.false_eq_true, if_false, List.map_const', List.cons_append, List.nil_append]

/-- A sensor measures at points if it is a point sensor and over regions otherwise. -/
def Sensor.WF (s : Sensor Pt) : Prop :=
  ∀ l ∈ s.locs, match l with
    | .point _ => s.kind = .point
    | .region _ => s.kind ≠ .point

theorem mapM_ok_of {α β : Type} (l : List α) (f : α → Except PyErr β) (g : α → β)
    (h : ∀ a ∈ l, f a = .ok (g a)) : l.mapM f = .ok (l.map g) := by
  induction l with
  | nil => rfl
  | cons a l ih =>
    rw [List.mapM_cons, h a (by simp), ih fun b hb => h b (by simp [hb])]
    rfl

/-- **C11** A measurement delivers, in the order of the same columns, the values that the
header announces. It is only refused if there are no locations, or for a region sensor with a
single component if NGSolve returns integrals of such fields as plain numbers. -/
theorem C11_data (s : Sensor Pt) (hw : s.WF) (integrate : (Pt → ℝ) → Name → ℝ)
    (scalarIntegral : Bool) :
    s.measure integrate scalarIntegral =
      if s.locs = [] ∨ (s.kind ≠ .point ∧ scalarIntegral = true ∧
        (s.fields.map (columnsOf s)).sum = 1) then .error .valueError
      else .ok ((tableColumns s).map fun c => valueOf s integrate c.1 c.2.1 c.2.2) := by
  unfold Sensor.measure
  by_cases hl : s.locs = []
  · simp [hl]
  · have hl' : s.locs.isEmpty = false := by simpa using hl
    simp only [hl', Bool.false_eq_true, if_false, hl, false_or]
    by_cases hb : s.kind ≠ .point ∧ scalarIntegral = true ∧ (s.fields.map (columnsOf s)).sum = 1
    · rw [if_pos hb]
      obtain ⟨l, t, ht⟩ := List.exists_cons_of_ne_nil hl
      have hwl := hw l (by rw [ht]; simp)
      rw [ht, List.mapM_cons]
      cases l with
      | point p => exact absurd hwl hb.1
      | region r =>
        have : s.measureAt integrate scalarIntegral (.region r) = .error .valueError := by
          unfold Sensor.measureAt
          simp only
          rw [if_pos ⟨by simp [hb.2.1], by rw [compoundDim_eq]; exact hb.2.2⟩]
        rw [this]; rfl
    · rw [if_neg hb]
      have hm : ∀ l ∈ s.locs, s.measureAt integrate scalarIntegral l =
          .ok (s.fields.flatMap fun f => (List.range (columnsOf s f)).map fun i =>
            valueOf s integrate l f i) := by
        intro l hmem
        have hwl := hw l hmem
        cases l with
        | point p =>
          have hk : s.kind = .point := hwl
          unfold Sensor.measureAt compound Sensor.openFields columnsOf valueOf
          simp only [hk, SensorKind.isL2, Bool.false_eq_true, if_false]
          rfl
        | region r =>
          have hk : s.kind ≠ .point := hwl
          unfold Sensor.measureAt
          simp only
          rw [if_neg (by
            rintro ⟨h1, h2⟩
            rw [compoundDim_eq] at h2
            exact hb ⟨hk, h1, h2⟩)]
          unfold integrals Sensor.openFields columnsOf valueOf
          cases hL : s.kind.isL2
          · simp only [Bool.false_eq_true, if_false]; rfl
          · simp only [if_true, List.flatMap_map, List.map_flatMap, List.map_map]
            rfl
      rw [mapM_ok_of _ _ _ hm]
      unfold tableColumns
      rw [map_columns]
      rfl

/-- **C11** In a transient run every header row and every data row has one cell more than
there are columns; a data row is the time followed by the values announced by the header, column
by column. -/
theorem C11_rectangular_partial (s : Sensor Pt) (hw : s.WF)
    (hs : s.kind.isL2 = false → ∀ f ∈ s.fields, GoodShape f.dims)
    (integrate : (Pt → ℝ) → Name → ℝ) (scalarIntegral : Bool) (data : List ℝ)
    (hdata : s.measure integrate scalarIntegral = .ok data) (t : ℝ) :
    (dataRow (some t) data : List (Cell Pt)) = Cell.time t ::
      (tableColumns s).map (fun c => Cell.num (valueOf s integrate c.1 c.2.1 c.2.2)) ∧
    ∃ h, streamHeader false s = .ok h ∧
      ∀ row ∈ headerRows h ++ [dataRow (some t) data], row.length = 1 + (tableColumns s).length := by
  rw [C11_data s hw] at hdata
  split_ifs at hdata
  have := Except.ok.inj hdata
  subst this
  refine ⟨by simp [dataRow], _, C11_header_partial s hs, ?_⟩
  intro row hrow
  simp only [headerRows, List.map_cons, List.map_nil, List.cons_append, List.nil_append,
    List.mem_cons, List.not_mem_nil, or_false, dataRow] at hrow
  rcases hrow with rfl | rfl | rfl | rfl | rfl <;> simp <;> omega

/-- **C11** A sensor without fields is refused with `ValueError` when a run begins, every other one is
accepted. -/
theorem C11_no_fields (s : Sensor Pt) :
    (s.open = .error .valueError ↔ s.fields = []) ∧ (s.open = .ok () ↔ s.fields ≠ []) := by
  have h : s.openFields.isEmpty = s.fields.isEmpty := by
    unfold Sensor.openFields
    split <;> simp
  unfold Sensor.open
  rw [h]
  cases s.fields <;> simp

example : (⟨.domain, "s", 1, [], [.region "air".toList]⟩ : Sensor ℕ).open = .error .valueError :=
  (C11_no_fields _).1.2 rfl

/-- **C11** A header whose rows would differ in length is refused: the sensor has a location
and some field is a matrix with fewer than nine entries that is not 2x2. -/
theorem C11_inconsistent_refused (s : Sensor Pt) (stationary : Bool) :
    streamHeader stationary s = .error .valueError ↔
      s.locs ≠ [] ∧ s.kind.isL2 = false ∧
        ∃ f ∈ s.fields, f.dims.length = 2 ∧ f.dims.prod < 9 ∧ f.dims ≠ [2, 2] := by
  have hk : ¬ (if s.kind = .point then "point" else "region") = "field" := by
    split_ifs <;> decide
  have hlen : ∀ {β : Type} (n : ℕ) (l : List β), (repeatList n l).length = n * l.length := by
    intro β n l; simp [repeatList]
  have hf : (baseHeader s.kind.isL2 s.openFields).1.length = (s.fields.map (columnsOf s)).sum := by
    rw [baseHeader_field]; simp [List.length_flatMap]
  have hl1 : (s.locs.flatMap fun l =>
      List.replicate (compoundDim s.openFields) (Cell.loc l)).length =
        s.locs.length * (s.fields.map (columnsOf s)).sum := by
    simp [List.length_flatMap, compoundDim_eq]
  -- the total number of component names
  have hge : ∀ fs : List (SField Pt),
      (fs.map fun f => f.dims.prod).sum ≤ (fs.map fun f => (componentNames false f).length).sum ∧
      ((fs.map fun f => (componentNames false f).length).sum = (fs.map fun f => f.dims.prod).sum ↔
        ¬ ∃ f ∈ fs, f.dims.length = 2 ∧ f.dims.prod < 9 ∧ f.dims ≠ [2, 2]) := by
    intro fs
    induction fs with
    | nil => simp
    | cons a t ih =>
      have ha : (componentNames false a).length =
        if a.dims.length = 2 ∧ a.dims.prod ≤ 9 ∧ a.dims ≠ [2, 2] then 9 else a.dims.prod :=
        componentNames_length a
      simp only [List.map_cons, List.sum_cons, List.mem_cons, exists_eq_or_imp, not_or]
      by_cases hbad : a.dims.length = 2 ∧ a.dims.prod < 9 ∧ a.dims ≠ [2, 2]
      · rw [if_pos ⟨hbad.1, hbad.2.1.le, hbad.2.2⟩] at ha
        have hlt := hbad.2.1
        refine ⟨by omega, ?_⟩
        constructor
        · intro h; omega
        · intro h; exact absurd hbad h.1
      · have ha' : (componentNames false a).length = a.dims.prod := by
          rw [ha]
          split_ifs with h
          · by_contra hne
            exact hbad ⟨h.1, by omega, h.2.2⟩
          · rfl
        refine ⟨by omega, ?_⟩
        rw [ha']
        constructor
        · intro h; exact ⟨hbad, ih.2.1 (by omega)⟩
        · intro h; have := ih.2.2 h.2; omega
  unfold streamHeader Sensor.getHeader
  simp only [Dict.get?, List.find?_cons, hk, decide_false, decide_true, Option.map_some,
    Option.getD_some, ne_eq, List.any_cons, List.any_nil, hl1, hlen, List.length_map, hf,
    not_true_eq_false, Bool.or_false, Bool.false_or]
  cases hL : s.kind.isL2
  · have hc : (baseHeader false s.openFields).2.length =
        (s.fields.map fun f => (componentNames false f).length).sum := by
      simp [baseHeader, Sensor.openFields, hL, List.length_flatMap]
    have hcol : (s.fields.map (columnsOf s)).sum = (s.fields.map fun f => f.dims.prod).sum := by
      congr 2; funext f; simp [columnsOf, hL]
    rw [hc, hcol]
    have := hge s.fields
    constructor
    · intro h
      split_ifs at h with h1
      simp only [decide_eq_true_eq] at h1
      refine ⟨?_, rfl, ?_⟩
      · rintro hl; rw [hl] at h1; simp at h1
      · by_contra hno
        rw [this.2.2 hno] at h1
        exact h1 rfl
    · rintro ⟨h1, -, h2⟩
      rw [if_pos]
      simp only [decide_eq_true_eq]
      intro h
      have hpos : 0 < s.locs.length := List.length_pos_iff.2 h1
      exact (this.2.1 (Nat.eq_of_mul_eq_mul_left hpos h)) h2
  · have hc : (baseHeader true s.openFields).2.length = (s.fields.map (columnsOf s)).sum := by
      have := baseHeader_component s (fun h => by rw [hL] at h; cases h)
      rw [hL] at this
      rw [this]; simp [List.length_flatMap]
    rw [hc]
    simp

/-- **C11 fails** for matrices of shape 9x1: the entries are labelled as those of a 3x3
matrix. -/
theorem C11_fails_nine : ∃ s : Sensor ℕ, s.WF ∧ (∃ f ∈ s.fields, f.dims = [9, 1]) ∧
    ∃ h, streamHeader false s = .ok h ∧
      (h.map Prod.snd)[2]? = some (["xx", "xy", "xz", "yx", "yy", "yz", "zx", "zy", "zz"].map
        Cell.text) := by
  refine ⟨{ kind := .point, name := "a", rate := 1,
            fields := [{ name := "f", dims := [9, 1], val := fun _ _ => 0 }],
            locs := [.point 0] }, ?_,
          ⟨_, List.mem_singleton.2 rfl, rfl⟩, ?_⟩
  · intro l hl
    simp at hl
    subst hl
    rfl
  · refine ⟨_, rfl, ?_⟩
    rfl

/-- **C11 fails** in stationary computations: the data rows are one cell shorter than the
header rows, for every sensor with at least one column. -/
theorem C11_fails_stationary (s : Sensor Pt) (hw : s.WF)
    (hs : s.kind.isL2 = false → ∀ f ∈ s.fields, GoodShape f.dims)
    (integrate : (Pt → ℝ) → Name → ℝ) (scalarIntegral : Bool) (data : List ℝ)
    (hdata : s.measure integrate scalarIntegral = .ok data) :
    ∃ h, streamHeader true s = .ok h ∧
      ∀ row ∈ headerRows h, row.length = (dataRow none data : List (Cell Pt)).length + 1 := by
  have h0 := C11_header_partial s hs
  rw [C11_data s hw] at hdata
  split_ifs at hdata
  have := Except.ok.inj hdata
  subst this
  have hgen : ∀ key : String, key = (if s.kind = .point then "point" else "region") →
      streamHeader true s = .ok
      [(key, (tableColumns s).map fun c => Cell.loc c.1),
       ("field", (tableColumns s).map fun c => Cell.text c.2.1.name),
       ("component", (tableColumns s).map fun c => Cell.text (labelOf s c.2.1 c.2.2))] := by
    intro key hkey
    rw [← hkey] at h0
    unfold streamHeader at h0 ⊢
    simp only [Bool.false_eq_true, if_false] at h0
    simp only [if_true]
    by_cases hc : (s.getHeader.any fun kv =>
        decide (kv.2.length ≠ ((Dict.get? s.getHeader "field").getD []).length)) = true
    · rw [if_pos hc] at h0; cases h0
    · rw [if_neg hc] at h0 ⊢
      have h1 := Except.ok.inj h0
      have := congrArg (List.take 3) h1
      have hlen : s.getHeader.length = 3 := rfl
      rw [List.take_left' hlen] at this
      rw [this]
      rfl
  refine ⟨_, hgen _ rfl, ?_⟩
  intro row hrow
  simp only [headerRows, List.map_cons, List.map_nil, List.mem_cons, List.not_mem_nil,
    or_false] at hrow
  rcases hrow with rfl | rfl | rfl <;> simp [dataRow]

/-- Non-vacuity: a scalar, a vector and a 2x2 matrix at two points. -/
example : ∃ s : Sensor ℕ, s.WF ∧ (∀ f ∈ s.fields, GoodShape f.dims) ∧ s.locs.length = 2 ∧
    (tableColumns s).length = 14 := by
  refine ⟨{ kind := .point, name := "a", rate := 1,
            fields := [{ name := "p", dims := [], val := fun x _ => x },
                       { name := "u", dims := [2], val := fun x i => x + i },
                       { name := "T", dims := [2, 2], val := fun x i => x * i }],
            locs := [.point 0, .point 1] }, ?_, ?_, rfl, ?_⟩
  · intro l hl
    simp at hl
    rcases hl with rfl | rfl <;> rfl
  · intro f hf
    simp at hf
    rcases hf with rfl | rfl | rfl <;> intro h <;> simp at h ⊢
  · unfold tableColumns
    rw [length_columns]
    rfl

/-! ## C51 -/

/-- The file objects opened in a sequence of events, with their files. -/
def openedIn {Row : Type} (evs : List (CsvEv Row)) : List (ℕ × String) :=
  evs.filterMap fun
    | .opened h f => some (h, f)
    | _ => none

/-- The file objects closed in a sequence of events. -/
def closedIn {Row : Type} (evs : List (CsvEv Row)) : List ℕ :=
  evs.filterMap fun
    | .closed h => some h
    | _ => none

/-- The rows written to a file object. -/
def rowsOf {Row : Type} (h : ℕ) (evs : List (CsvEv Row)) : List Row :=
  evs.filterMap fun
    | .row h' r => if h' = h then some r else none
    | _ => none

section
variable {Row : Type}

@[simp] theorem openedIn_append (a b : List (CsvEv Row)) :
    openedIn (a ++ b) = openedIn a ++ openedIn b := List.filterMap_append ..

@[simp] theorem closedIn_append (a b : List (CsvEv Row)) :
    closedIn (a ++ b) = closedIn a ++ closedIn b := List.filterMap_append ..

@[simp] theorem rowsOf_append (h : ℕ) (a b : List (CsvEv Row)) :
    rowsOf h (a ++ b) = rowsOf h a ++ rowsOf h b := List.filterMap_append ..

theorem openedIn_rows (h : ℕ) (rows : List Row) : openedIn (rows.map (CsvEv.row h)) = [] := by
  simp [openedIn, List.filterMap_map]

theorem closedIn_rows (h : ℕ) (rows : List Row) : closedIn (rows.map (CsvEv.row h)) = [] := by
  simp [closedIn, List.filterMap_map]

theorem rowsOf_rows (h h' : ℕ) (rows : List Row) :
    rowsOf h (rows.map (CsvEv.row h')) = if h' = h then rows else [] := by
  by_cases e : h' = h
  · simp [rowsOf, List.filterMap_map, e]
  · simp [rowsOf, List.filterMap_map, e]

theorem dict_set_new (d : Dict String ℕ) (k : String) (v : ℕ) (h : k ∉ d.keys) :
    d.set k v = d ++ [(k, v)] := by
  have : d.has k = false := by
    rw [Bool.eq_false_iff]; exact fun hh => h (Dict.has_iff.1 hh)
  simp [Dict.set, this]

/-- Opening files for sensors with distinct names. -/
theorem openCsv_distinct (write : Bool) (sensors : List (String × List Row)) (h : ℕ)
    (csv : Dict String ℕ) (hn : (csv.keys ++ sensors.map Prod.fst).Nodup) :
    (openCsv write (sensors.map fun s => (s.1, .ok s.2)) h csv).1 =
      .ok (csv ++ (sensors.map Prod.fst).zip (List.range' h sensors.length)) ∧
    openedIn (openCsv write (sensors.map fun s => (s.1, .ok s.2)) h csv).2 =
      (List.range' h sensors.length).zip (sensors.map fun s => s.1 ++ ".csv") ∧
    closedIn (openCsv write (sensors.map fun s => (s.1, .ok s.2)) h csv).2 = [] ∧
    ∀ i, rowsOf (h + i) (openCsv write (sensors.map fun s => (s.1, .ok s.2)) h csv).2 =
      if write then ((sensors.map Prod.snd)[i]?).getD [] else [] := by
  induction sensors generalizing h csv with
  | nil => simp [openCsv, openedIn, closedIn, rowsOf]
  | cons a t ih =>
    obtain ⟨name, rows⟩ := a
    have hname : name ∉ csv.keys := by
      intro hc
      rw [List.nodup_append] at hn
      exact hn.2.2 name hc name (by simp) rfl
    have hnext : ((csv.set name h).keys ++ t.map Prod.fst).Nodup := by
      rw [Dict.keys_set, if_neg hname]
      simpa using hn
    obtain ⟨i1, i2, i3, i4⟩ := ih (h + 1) (csv.set name h) hnext
    rw [dict_set_new _ _ _ hname] at i1 i2 i3 i4
    have key : ∀ rows' : List Row, rows' = (if write then rows else []) →
        openCsv write (((name, rows) :: t).map fun s => (s.1, .ok s.2)) h csv =
        ((openCsv write (t.map fun s => (s.1, .ok s.2)) (h + 1) (csv ++ [(name, h)])).1,
          CsvEv.opened h (name ++ ".csv") :: rows'.map (CsvEv.row h) ++
            (openCsv write (t.map fun s => (s.1, .ok s.2)) (h + 1) (csv ++ [(name, h)])).2) := by
      rintro rows' rfl
      rw [List.map_cons, openCsv, dict_set_new _ _ _ hname]
      cases write <;> rfl
    rw [key _ rfl]
    refine ⟨?_, ?_, ?_, ?_⟩
    · rw [i1]; simp [List.range'_succ]
    · simp only [List.cons_append]
      rw [show openedIn (CsvEv.opened h (name ++ ".csv") ::
          (((if write then rows else []).map (CsvEv.row h)) ++
            (openCsv write (t.map fun s => (s.1, .ok s.2)) (h + 1) (csv ++ [(name, h)])).2)) =
          (h, name ++ ".csv") :: openedIn (((if write then rows else []).map (CsvEv.row h)) ++
            (openCsv write (t.map fun s => (s.1, .ok s.2)) (h + 1) (csv ++ [(name, h)])).2) from rfl]
      rw [openedIn_append, openedIn_rows, i2]
      simp [List.range'_succ]
    · simp only [List.cons_append]
      rw [show closedIn (CsvEv.opened h (name ++ ".csv") ::
          (((if write then rows else []).map (CsvEv.row h)) ++
            (openCsv write (t.map fun s => (s.1, .ok s.2)) (h + 1) (csv ++ [(name, h)])).2)) =
          closedIn (((if write then rows else []).map (CsvEv.row h)) ++
            (openCsv write (t.map fun s => (s.1, .ok s.2)) (h + 1) (csv ++ [(name, h)])).2) from rfl]
      rw [closedIn_append, closedIn_rows, i3]
      rfl
    · intro i
      simp only [List.cons_append]
      rw [show ∀ hh, rowsOf hh (CsvEv.opened h (name ++ ".csv") ::
          (((if write then rows else []).map (CsvEv.row h)) ++
            (openCsv write (t.map fun s => (s.1, .ok s.2)) (h + 1) (csv ++ [(name, h)])).2)) =
          rowsOf hh (((if write then rows else []).map (CsvEv.row h)) ++
            (openCsv write (t.map fun s => (s.1, .ok s.2)) (h + 1) (csv ++ [(name, h)])).2)
            from fun _ => rfl]
      rw [rowsOf_append, rowsOf_rows]
      cases i with
      | zero =>
        have hz : ∀ (l : List (String × Except PyErr (List Row))) (n m : ℕ) (c : Dict String ℕ),
            n < m → rowsOf n (openCsv write l m c).2 = [] := by
          intro l
          induction l with
          | nil => intro n m c _; rfl
          | cons b l ihl =>
            intro n m c hnm
            obtain ⟨nm, hd⟩ := b
            rw [openCsv]
            cases hcase : (if write then hd else Except.ok []) with
            | error e => rfl
            | ok rr =>
              simp only [List.cons_append]
              rw [show ∀ X : List (CsvEv Row), rowsOf n (CsvEv.opened m (nm ++ ".csv") :: X) =
                rowsOf n X from fun _ => rfl]
              rw [rowsOf_append, rowsOf_rows, if_neg (by omega), ihl n (m + 1) _ (by omega)]
              rfl
        rw [hz _ _ _ _ (by omega)]
        cases write <;> simp
      | succ j =>
        rw [if_neg (by omega), show h + (j + 1) = h + 1 + j by omega, i4 j]
        simp

/-- **C51** Sensors with different names, all of whose headers are accepted: every sensor
gets its own file object on its own file, holding its header rows, and closing closes every
file object exactly once. -/
theorem C51_own_files_partial (sensors : List (String × List Row)) (h : ℕ)
    (hn : (sensors.map Prod.fst).Nodup) :
    ∃ csv evs, openCsv true (sensors.map fun s => (s.1, .ok s.2)) h [] = (.ok csv, evs) ∧
      -- the files are distinct, one per sensor in order
      (openedIn evs).map Prod.snd = sensors.map (fun s => s.1 ++ ".csv") ∧
      ((openedIn evs).map Prod.snd).Nodup ∧ ((openedIn evs).map Prod.fst).Nodup ∧
      -- each sensor writes to the file object opened for its file, after its header
      (∀ s ∈ sensors, ∃ k, csv.get? s.1 = some k ∧ (k, s.1 ++ ".csv") ∈ openedIn evs ∧
        rowsOf k evs = s.2) ∧
      -- nothing is closed early and everything is closed in the end
      closedIn evs = [] ∧
      closedIn (closeCsv csv : List (CsvEv Row)) = (openedIn evs).map Prod.fst := by
  obtain ⟨e1, e2, e3, e4⟩ := openCsv_distinct true sensors h [] (by simpa [Dict.keys] using hn)
  refine ⟨_, _, Prod.ext e1 rfl, ?_, ?_, ?_, ?_, e3, ?_⟩
  · rw [e2, List.map_snd_zip (by simp)]
  · rw [e2, List.map_snd_zip (by simp)]
    have : (sensors.map fun s => s.1 ++ ".csv") = (sensors.map Prod.fst).map (· ++ ".csv") := by
      simp [Function.comp_def]
    rw [this]
    refine hn.map fun a b hab => ?_
    have h' : (a ++ ".csv").toList = (b ++ ".csv").toList := congrArg String.toList hab
    rw [String.toList_append, String.toList_append] at h'
    exact String.toList_inj.1 (List.append_cancel_right h')
  · rw [e2, List.map_fst_zip (by simp)]
    exact List.nodup_range'
  · intro s hs
    obtain ⟨i, hi, rfl⟩ := List.getElem_of_mem hs
    refine ⟨h + i, ?_, ?_, ?_⟩
    · apply Dict.get?_of_mem
      · simp only [Dict.keys, List.nil_append]
        rw [List.map_fst_zip (by simp)]
        exact hn
      · rw [List.nil_append, List.mem_iff_getElem]
        exact ⟨i, by simpa using hi, by simp⟩
    · rw [e2, List.mem_iff_getElem]
      exact ⟨i, by simpa using hi, by simp⟩
    · rw [e4 i]
      simp [hi]
  · rw [e2, List.map_fst_zip (by simp)]
    simp only [closeCsv, closedIn, List.nil_append, List.filterMap_map, Function.comp_def]
    rw [show (fun x : String × ℕ => some x.2) = some ∘ Prod.snd from rfl, List.filterMap_eq_map]
    exact List.map_snd_zip (by simp)

/-- Which rows one saving hook writes to which file object. -/
theorem writeCsv_ok (csv : Dict String ℕ) (due : List (String × Option Row))
    (hdue : ∀ s ∈ due, ∃ k, csv.get? s.1 = some k) :
    ∃ evs, writeCsv csv (due.map fun s => (s.1, .ok s.2)) = (.ok (), evs) ∧
      openedIn evs = [] ∧ closedIn evs = [] ∧
      ∀ k, rowsOf k evs = due.filterMap fun s => if csv.get? s.1 = some k then s.2 else none := by
  induction due with
  | nil => exact ⟨[], rfl, rfl, rfl, fun _ => rfl⟩
  | cons a t ih =>
    obtain ⟨evs, h1, h2, h3, h4⟩ := ih fun s hs => hdue s (by simp [hs])
    obtain ⟨name, r⟩ := a
    cases r with
    | none =>
      refine ⟨evs, by rw [List.map_cons, writeCsv, h1], h2, h3, fun k => ?_⟩
      rw [h4 k, List.filterMap_cons]
      simp
    | some r =>
      obtain ⟨hd, hk⟩ := hdue (name, some r) (by simp)
      simp only at hk
      refine ⟨CsvEv.row hd r :: evs, ?_, h2, h3, fun k => ?_⟩
      · rw [List.map_cons, writeCsv, h1, hk]
      · rw [List.filterMap_cons]
        simp only [hk, Option.some.injEq]
        by_cases e : hd = k
        · simp only [e, if_true]
          rw [show rowsOf k (CsvEv.row k r :: evs) = r :: rowsOf k evs by simp [rowsOf], h4 k]
        · simp only [e, if_false]
          rw [show rowsOf k (CsvEv.row hd r :: evs) = rowsOf k evs by simp [rowsOf, e], h4 k]

/-- **C51** With different names, the rows that a saving hook writes to the file of a
sensor are exactly the row of that sensor, if it is due. -/
theorem C51_own_rows_partial (sensors : List (String × List Row)) (h : ℕ)
    (hn : (sensors.map Prod.fst).Nodup) (row : String → Option Row) :
    ∃ csv evs ws, openCsv true (sensors.map fun s => (s.1, .ok s.2)) h [] = (.ok csv, evs) ∧
      writeCsv csv (sensors.map fun s => (s.1, .ok (row s.1))) = (.ok (), ws) ∧
      ∀ s ∈ sensors, ∃ k, (k, s.1 ++ ".csv") ∈ openedIn evs ∧ rowsOf k ws = (row s.1).toList := by
  obtain ⟨csv, evs, h1, -, -, hnd, h3, -, -⟩ := C51_own_files_partial sensors h hn
  have hex : ∀ s ∈ sensors.map (fun s => (s.1, row s.1)), ∃ k, csv.get? s.1 = some k := by
    intro s hs
    obtain ⟨s', hs', rfl⟩ := List.mem_map.1 hs
    obtain ⟨k, hk, -⟩ := h3 s' hs'
    exact ⟨k, hk⟩
  obtain ⟨ws, h4, -, -, h5⟩ := writeCsv_ok csv _ hex
  refine ⟨csv, evs, ws, h1, by simpa [List.map_map, Function.comp_def] using h4, ?_⟩
  intro s hs
  obtain ⟨k, hk, hm, -⟩ := h3 s hs
  refine ⟨k, hm, ?_⟩
  rw [h5 k]
  -- only `s` itself is mapped to `k`
  have hinj : ∀ s' ∈ sensors, csv.get? s'.1 = some k → s'.1 = s.1 := by
    intro s' hs' hk'
    obtain ⟨k', hk2, hm2, -⟩ := h3 s' hs'
    have : k' = k := by rw [hk'] at hk2; exact (Option.some.inj hk2).symm
    subst this
    have hpair := List.inj_on_of_nodup_map hnd hm hm2 rfl
    have h' := congrArg (fun p : ℕ × String => p.2.toList) hpair
    simp only [String.toList_append] at h'
    exact (String.toList_inj.1 (List.append_cancel_right h')).symm
  have : ∀ l : List (String × List Row), (∀ s' ∈ l, s' ∈ sensors) → (l.map Prod.fst).Nodup →
      ((l.map fun s => (s.1, row s.1)).filterMap fun s =>
        if csv.get? s.1 = some k then s.2 else none) =
        if s.1 ∈ l.map Prod.fst then (row s.1).toList else [] := by
    intro l
    induction l with
    | nil => intro _ _; simp
    | cons a t ih =>
      intro hl hnd'
      rw [List.map_cons, List.nodup_cons] at hnd'
      have iht := ih (fun s' hs' => hl s' (by simp [hs'])) hnd'.2
      rw [List.map_cons, List.filterMap_cons]
      by_cases ha : a.1 = s.1
      · have hg : csv.get? a.1 = some k := by rw [ha]; exact hk
        simp only [hg, if_true]
        have hnot : s.1 ∉ t.map Prod.fst := by rw [← ha]; exact hnd'.1
        rw [if_neg hnot] at iht
        rw [iht, if_pos (by simp [ha]), ha]
        cases row s.1 <;> rfl
      · have hg : ¬ csv.get? a.1 = some k := fun hg => ha (hinj a (hl a (by simp)) hg)
        simp only [hg, if_false]
        rw [iht]
        by_cases hm' : s.1 ∈ t.map Prod.fst
        · rw [if_pos hm', if_pos (by rw [List.map_cons]; exact List.mem_cons_of_mem _ hm')]
        · rw [if_neg hm', if_neg]
          rw [List.map_cons, List.mem_cons]
          push Not
          exact ⟨fun e => ha e.symm, hm'⟩
  rw [this sensors (fun _ h => h) hn, if_pos (List.mem_map.2 ⟨s, hs, rfl⟩)]

/-- **C51 fails** for two sensors (of different kinds) with the same name: both open the
same file, all data rows of both go to the second file object, and the first one is never
closed. -/
theorem C51_fails_same_name (name : String) (h1 h2 : List Row) (r1 r2 : Row) :
    ∃ csv evs ws, openCsv true [(name, .ok h1), (name, .ok h2)] 0 [] = (.ok csv, evs) ∧
      openedIn evs = [(0, name ++ ".csv"), (1, name ++ ".csv")] ∧
      writeCsv csv [(name, .ok (some r1)), (name, .ok (some r2))] = (.ok (), ws) ∧
      rowsOf 0 ws = [] ∧ rowsOf 1 ws = [r1, r2] ∧
      0 ∉ closedIn (closeCsv csv : List (CsvEv Row)) := by
  have hset : (Dict.set (Dict.set ([] : Dict String ℕ) name 0) name 1) = [(name, 1)] := by
    simp [Dict.set, Dict.has]
  refine ⟨[(name, 1)], CsvEv.opened 0 (name ++ ".csv") :: h1.map (CsvEv.row 0) ++
      (CsvEv.opened 1 (name ++ ".csv") :: h2.map (CsvEv.row 1) ++ []),
    [.row 1 r1, .row 1 r2], ?_, ?_, ?_, rfl, rfl, ?_⟩
  · simp only [openCsv, if_true, hset]
  · rw [List.cons_append, List.cons_append]
    rw [show ∀ X : List (CsvEv Row), openedIn (CsvEv.opened 0 (name ++ ".csv") :: X) =
      (0, name ++ ".csv") :: openedIn X from fun _ => rfl, openedIn_append, openedIn_rows]
    rw [show ∀ X : List (CsvEv Row), openedIn (CsvEv.opened 1 (name ++ ".csv") :: X) =
      (1, name ++ ".csv") :: openedIn X from fun _ => rfl, openedIn_append, openedIn_rows]
    rfl
  · simp [writeCsv, Dict.get?]
  · simp [closeCsv, closedIn]

/-- Non-vacuity of the C51 theorems. -/
example : ∃ sensors : List (String × List ℕ), sensors.length = 2 ∧
    (sensors.map Prod.fst).Nodup := ⟨[("a", [1, 2]), ("b", [3])], rfl, by decide⟩

end

end Dream
