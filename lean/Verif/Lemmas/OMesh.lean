import Verif.Model.OMesh
import Mathlib.Data.List.Nodup

/-!
# The O-mesh in grid coordinates
-/

namespace Dream.OM

/-- A grid point: polar index, radial index. -/
abbrev G := ℕ × ℕ

/-- The number of a grid point. -/
def vtx (n : ℕ) (p : G) : ℕ := p.1 + p.2 * n

theorem vtx_inj {n : ℕ} {p q : G} (hp : p.1 < n) (hq : q.1 < n) (h : vtx n p = vtx n q) :
    p = q := by
  unfold vtx at h
  have hn : 0 < n := by omega
  have h1 : (p.1 + p.2 * n) % n = (q.1 + q.2 * n) % n := by rw [h]
  have h2 : (p.1 + p.2 * n) / n = (q.1 + q.2 * n) / n := by rw [h]
  rw [Nat.add_mul_mod_self_right, Nat.add_mul_mod_self_right, Nat.mod_eq_of_lt hp,
    Nat.mod_eq_of_lt hq] at h1
  rw [Nat.add_mul_div_right _ _ hn, Nat.add_mul_div_right _ _ hn, Nat.div_eq_of_lt hp,
    Nat.div_eq_of_lt hq] at h2
  exact Prod.ext h1 (by omega)

theorem vtx_lt {n m : ℕ} {p : G} (hp : p.1 < n) (hq : p.2 ≤ m) : vtx n p < (m + 1) * n := by
  unfold vtx
  calc p.1 + p.2 * n < n + p.2 * n := by omega
    _ = (p.2 + 1) * n := by ring
    _ ≤ (m + 1) * n := Nat.mul_le_mul_right _ (by omega)

/-- The two triangles of the cell `(i, j)`. -/
def tri (n i j : ℕ) : List (G × G × G) :=
  if i + 1 = n then
    [((i, j), (i, j + 1), (0, j)), ((0, j), (i, j + 1), (0, j + 1))]
  else
    [((i, j), (i, j + 1), (i + 1, j)), ((i, j + 1), (i + 1, j + 1), (i + 1, j))]

/-- All triangles. -/
def tris (n m : ℕ) : List (G × G × G) :=
  (List.range m).flatMap fun j => (List.range n).flatMap fun i => tri n i j

/-- The boundary edges. -/
def bnd (n m o : ℕ) : List ((G × G) × ℕ) :=
  ((List.range n).map fun (i : ℕ) => (((i, 0), ((if i + 1 = n then 0 else i + 1), 0)), 1)) ++
  ((List.range (n - 1)).map fun (i : ℕ) =>
    (((i, m), (i + 1, m)), if o ≤ i ∧ i < n / 2 + o then 2 else 3)) ++
  [(((0, m), (n - 1, m)), 3)]

/-- Numbers of a triple of grid points. -/
def num3 (n : ℕ) (t : G × G × G) : ℕ × ℕ × ℕ := (vtx n t.1, vtx n t.2.1, vtx n t.2.2)

/-- The same as integers. -/
def int3 (t : ℕ × ℕ × ℕ) : ℤ × ℤ × ℤ := (t.1, t.2.1, t.2.2)

/-- Numbers of an edge. -/
def num2 (n : ℕ) (e : (G × G) × ℕ) : (ℕ × ℕ) × ℕ := ((vtx n e.1.1, vtx n e.1.2), e.2)

/-- The same as integers. -/
def int2 (e : (ℕ × ℕ) × ℕ) : (ℤ × ℤ) × ℕ := ((e.1.1, e.1.2), e.2)

theorem pyRangeInt_zero (n : ℕ) : pyRangeInt 0 n = (List.range n).map fun (k : ℕ) => (k : ℤ) := by
  simp [pyRangeInt]

theorem flatMap_map {α β γ : Type} (f : α → β) (g : β → List γ) (l : List α) :
    (l.map f).flatMap g = l.flatMap fun a => g (f a) := by
  induction l with
  | nil => rfl
  | cons a t ih => simp [ih]

theorem triangles_eq (n m : ℕ) (hn : 1 ≤ n) :
    omeshTriangles n m = (tris n m).map fun t => int3 (num3 n t) := by
  unfold omeshTriangles tris
  rw [pyRangeInt_zero, flatMap_map, List.map_flatMap]
  congr 1
  funext j
  obtain ⟨k, rfl⟩ : ∃ k, n = k + 1 := ⟨n - 1, by omega⟩
  have e : ((k + 1 : ℕ) : ℤ) - 1 = (k : ℕ) := by push_cast; ring
  rw [e, pyRangeInt_zero, flatMap_map, List.map_flatMap, List.range_succ, List.flatMap_append]
  congr 1
  · apply List.flatMap_congr
    intro i hi
    have hi' : ¬ i + 1 = k + 1 := by have := List.mem_range.1 hi; omega
    simp only [tri, hi', if_false, List.map_cons, List.map_nil, int3, num3, vtx]
    push_cast
    ring_nf
  · simp only [List.flatMap_cons, List.flatMap_nil, List.append_nil, tri, if_true, List.map_cons,
      List.map_nil, int3, num3, vtx]
    push_cast
    simp

theorem pyRangeInt_nat (a b : ℕ) :
    pyRangeInt a b = (List.range (b - a)).map fun (k : ℕ) => ((a + k : ℕ) : ℤ) := by
  unfold pyRangeInt
  have : ((b : ℤ) - a).toNat = b - a := by omega
  rw [this]
  simp

theorem inner_eq (k : ℕ) : ((pyRangeInt 0 (k : ℤ)).map fun i => ((i, i + 1), 1)) ++ [(((k : ℤ), 0), 1)]
    = ((List.range (k + 1)).map fun (i : ℕ) =>
        (((i, 0), ((if i + 1 = k + 1 then 0 else i + 1), 0)), 1)).map
          fun e => int2 (num2 (k + 1) e) := by
  rw [pyRangeInt_zero, List.map_map, List.map_map, List.range_succ, List.map_append]
  congr 1
  · apply List.map_congr_left
    intro i hi
    have : ¬ i = k := by have := List.mem_range.1 hi; omega
    simp [int2, num2, vtx, this]
  · simp [int2, num2, vtx]

theorem outer_eq (n m o q k : ℕ) (hq : o ≤ q) (hk : q ≤ k) :
    ((pyRangeInt 0 (o : ℤ)).map fun i => ((i + (m : ℤ) * n, i + (m : ℤ) * n + 1), 3)) ++
    ((pyRangeInt (o : ℤ) (q : ℤ)).map fun i => ((i + (m : ℤ) * n, i + (m : ℤ) * n + 1), 2)) ++
    ((pyRangeInt (q : ℤ) (k : ℤ)).map fun i => ((i + (m : ℤ) * n, i + (m : ℤ) * n + 1), 3))
    = ((List.range k).map fun (i : ℕ) =>
        (((i, m), (i + 1, m)), if o ≤ i ∧ i < q then 2 else 3)).map
          fun e => int2 (num2 n e) := by
  have split : List.range k = List.range o ++ (List.range (q - o)).map (fun (i : ℕ) => o + i)
      ++ (List.range (k - q)).map (fun (i : ℕ) => q + i) := by
    rw [← List.range_add, show o + (q - o) = q by omega, ← List.range_add]
    congr 1; omega
  rw [split, pyRangeInt_zero, pyRangeInt_nat, pyRangeInt_nat]
  simp only [List.map_append, List.map_map]
  congr 1
  · congr 1
    · apply List.map_congr_left
      intro i hi
      have : ¬ (o ≤ i ∧ i < q) := by have := List.mem_range.1 hi; omega
      simp only [Function.comp, int2, num2, vtx, this, if_false]
      push_cast
      ring_nf
    · apply List.map_congr_left
      intro i hi
      have : o ≤ o + i ∧ o + i < q := by have := List.mem_range.1 hi; omega
      simp only [Function.comp, int2, num2, vtx, this, and_self, if_true]
      push_cast
      ring_nf
  · apply List.map_congr_left
    intro i hi
    have : ¬ (o ≤ q + i ∧ q + i < q) := by omega
    simp only [Function.comp, int2, num2, vtx, this, if_false]
    push_cast
    ring_nf

theorem edges_eq (n m o : ℕ) (hn : 1 ≤ n) (ho : omeshOffset n m = o) (h2 : n / 2 + o ≤ n - 1) :
    omeshEdges n m = (bnd n m o).map fun e => int2 (num2 n e) := by
  unfold omeshEdges bnd
  rw [ho]
  simp only
  obtain ⟨k, rfl⟩ : ∃ k, n = k + 1 := ⟨n - 1, by omega⟩
  have e : ((k + 1 : ℕ) : ℤ) - 1 = (k : ℕ) := by push_cast; ring
  have e2 : Int.tdiv ((k + 1 : ℕ) : ℤ) 2 + (o : ℤ) = (((k + 1) / 2 + o : ℕ) : ℤ) := by
    rw [Int.tdiv_eq_ediv_of_nonneg (by omega)]; push_cast; rfl
  have ek : k + 1 - 1 = k := by omega
  rw [e, e2, ek, List.map_append, List.map_append, ← inner_eq,
    ← outer_eq (k + 1) m o ((k + 1) / 2 + o) k (by omega) (by omega)]
  simp only [List.append_assoc]
  congr 5
  simp [int2, num2, vtx]

theorem mapM_ok {α β : Type} (f : α → Except PyErr β) (g : α → β) (l : List α)
    (h : ∀ x ∈ l, f x = .ok (g x)) : l.mapM f = .ok (l.map g) := by
  induction l with
  | nil => rfl
  | cons a t ih =>
    rw [List.mapM_cons, h a (by simp), ih fun x hx => h x (by simp [hx])]
    rfl

theorem pyIndex_ok {n k : ℕ} (h : k < n) : pyIndex n (k : ℤ) = .ok k := by
  unfold pyIndex
  rw [if_pos ⟨by omega, by omega⟩]
  simp

theorem tris_bound {n m : ℕ} {t : G × G × G} (h : t ∈ tris n m) :
    (t.1.1 < n ∧ t.1.2 ≤ m) ∧ (t.2.1.1 < n ∧ t.2.1.2 ≤ m) ∧ (t.2.2.1 < n ∧ t.2.2.2 ≤ m) := by
  simp only [tris, List.mem_flatMap, List.mem_range] at h
  obtain ⟨j, hj, i, hi, h⟩ := h
  unfold tri at h
  split_ifs at h with hc <;> simp only [List.mem_cons, List.not_mem_nil, or_false] at h <;>
    rcases h with rfl | rfl <;> simp only <;> omega

theorem bnd_bound {n m o : ℕ} (hn : 1 ≤ n) {e : (G × G) × ℕ} (h : e ∈ bnd n m o) :
    (e.1.1.1 < n ∧ e.1.1.2 ≤ m) ∧ (e.1.2.1 < n ∧ e.1.2.2 ≤ m) := by
  simp only [bnd, List.mem_append, List.mem_map, List.mem_range, List.mem_singleton] at h
  rcases h with (⟨i, hi, rfl⟩ | ⟨i, hi, rfl⟩) | rfl
  · simp only
    split_ifs <;> omega
  · simp only; omega
  · simp only; omega

/-- The result for positive admissible numbers, in grid coordinates. -/
theorem mesh_eq (n m : ℕ) (hn : 1 ≤ n) (hm : 1 ≤ m) (h4 : n % 4 = 0) (h2 : m % 2 = 0)
    (hle : m ≤ n / 2) :
    ∃ ps, getCylinderOMesh n m = .ok ⟨ps, (tris n m).map (num3 n),
      (bnd n m (n / 4 - m / 2)).map (num2 n)⟩ ∧
      ps = (List.range (m + 1)).flatMap fun (j : ℕ) =>
        (List.range n).map fun (i : ℕ) => ((i : ℤ), (j : ℤ)) := by
  have e : ((m : ℤ) + 1) = ((m + 1 : ℕ) : ℤ) := by push_cast; ring
  have hps : omeshPoints n m = .ok ((List.range (m + 1)).flatMap fun (j : ℕ) =>
      (List.range n).map fun (i : ℕ) => ((i : ℤ), (j : ℤ))) := by
    unfold omeshPoints
    simp only
    rw [if_neg (by omega), e, pyRangeInt_zero, pyRangeInt_zero, flatMap_map]
    simp [List.map_map, Function.comp_def]
  have hlen : ((List.range (m + 1)).flatMap fun (j : ℕ) =>
      (List.range n).map fun (i : ℕ) => ((i : ℤ), (j : ℤ))).length = (m + 1) * n := by
    simp [List.length_flatMap]
  have ho : omeshOffset n m = ((n / 4 - m / 2 : ℕ) : ℤ) := by
    unfold omeshOffset
    rw [Int.tdiv_eq_ediv_of_nonneg (by omega)]
    omega
  refine ⟨_, ?_, rfl⟩
  unfold getCylinderOMesh
  rw [if_neg (by omega), if_neg (by omega),
    if_neg (by rw [Int.tdiv_eq_ediv_of_nonneg (by omega)]; omega), hps]
  simp only [bind, Except.bind, pure, Except.pure]
  rw [hlen, triangles_eq n m hn, edges_eq n m _ hn ho (by omega)]
  rw [mapM_ok _ (fun t => (t.1.toNat, t.2.1.toNat, t.2.2.toNat))]
  · simp only
    rw [mapM_ok _ (fun e => ((e.1.1.toNat, e.1.2.toNat), e.2))]
    · simp [List.map_map, Function.comp_def, int3, int2]
    · intro x hx
      obtain ⟨t, ht, rfl⟩ := List.mem_map.1 hx
      obtain ⟨⟨a1, a2⟩, b1, b2⟩ := bnd_bound hn ht
      simp only [int2, num2]
      rw [pyIndex_ok (vtx_lt a1 a2), pyIndex_ok (vtx_lt b1 b2)]
      simp
  · intro x hx
    obtain ⟨t, ht, rfl⟩ := List.mem_map.1 hx
    obtain ⟨⟨a1, a2⟩, ⟨b1, b2⟩, c1, c2⟩ := tris_bound ht
    simp only [int3, num3]
    rw [pyIndex_ok (vtx_lt a1 a2), pyIndex_ok (vtx_lt b1 b2), pyIndex_ok (vtx_lt c1 c2)]
    simp

/-! ### Directed edges in grid coordinates -/

/-- The directed edges of a triangle. -/
def dir3 {α : Type} (t : α × α × α) : List (α × α) := [(t.1, t.2.1), (t.2.1, t.2.2), (t.2.2, t.1)]

/-- All directed edges of triangles. -/
def dirs (n m : ℕ) : List (G × G) := (tris n m).flatMap dir3

/-- Next polar index. -/
def nx (n i : ℕ) : ℕ := if i + 1 = n then 0 else i + 1

theorem nx_lt {n i : ℕ} (h : i < n) : nx n i < n := by unfold nx; split_ifs <;> omega

/-- The directed edges of a cell. -/
def cell (n i j : ℕ) : List (G × G) := (tri n i j).flatMap dir3

theorem mem_cell {n i j : ℕ} {e : G × G} : e ∈ cell n i j ↔
    e = ((i, j), (i, j + 1)) ∨ e = ((i, j + 1), (nx n i, j)) ∨ e = ((nx n i, j), (i, j)) ∨
    e = ((i, j + 1), (nx n i, j + 1)) ∨ e = ((nx n i, j + 1), (nx n i, j)) ∨
    e = ((nx n i, j), (i, j + 1)) := by
  unfold cell tri nx
  split_ifs
  · simp only [dir3, List.flatMap_cons, List.flatMap_nil, List.append_nil, List.mem_append,
      List.mem_cons, List.not_mem_nil, or_false]
    tauto
  · simp only [dir3, List.flatMap_cons, List.flatMap_nil, List.append_nil, List.mem_append,
      List.mem_cons, List.not_mem_nil, or_false]
    tauto

theorem dirs_eq (n m : ℕ) :
    dirs n m = (List.range m).flatMap fun j => (List.range n).flatMap fun i => cell n i j := by
  unfold dirs tris cell
  rw [List.flatMap_assoc]
  congr 1
  funext j
  rw [List.flatMap_assoc]

theorem mem_dirs {n m : ℕ} {e : G × G} : e ∈ dirs n m ↔ ∃ j < m, ∃ i < n, e ∈ cell n i j := by
  rw [dirs_eq]
  simp

theorem cell_nodup {n i j : ℕ} (hn : 3 ≤ n) : (cell n i j).Nodup := by
  unfold cell tri
  split_ifs with h
  · simp only [dir3, List.flatMap_cons, List.flatMap_nil, List.append_nil, List.cons_append,
      List.nil_append, List.nodup_cons, List.mem_cons, List.not_mem_nil, or_false, Prod.mk.injEq,
      not_or, not_false_eq_true, List.nodup_nil, and_true]
    omega
  · simp only [dir3, List.flatMap_cons, List.flatMap_nil, List.append_nil, List.cons_append,
      List.nil_append, List.nodup_cons, List.mem_cons, List.not_mem_nil, or_false, Prod.mk.injEq,
      not_or, not_false_eq_true, List.nodup_nil, and_true]
    omega

theorem cell_inj {n i j i' j' : ℕ} (hn : 3 ≤ n) (hi : i < n) (hi' : i' < n) {e : G × G}
    (h : e ∈ cell n i j) (h' : e ∈ cell n i' j') : i = i' ∧ j = j' := by
  obtain ⟨⟨a, b⟩, ⟨c, d⟩⟩ := e
  rw [mem_cell] at h h'
  simp only [Prod.mk.injEq, nx] at h h'
  by_cases h1 : i + 1 = n <;> by_cases h2 : i' + 1 = n <;> simp only [h1, h2, if_true, if_false] at h h' <;>
    omega

theorem dirs_nodup {n m : ℕ} (hn : 3 ≤ n) : (dirs n m).Nodup := by
  rw [dirs_eq, List.nodup_flatMap]
  constructor
  · intro j _
    rw [List.nodup_flatMap]
    refine ⟨fun i _ => cell_nodup hn, ?_⟩
    refine List.Pairwise.imp_of_mem ?_ (List.nodup_range (n := n))
    intro a b ha hb hab
    rw [Function.onFun, List.disjoint_left]
    intro e he he'
    exact hab (cell_inj hn (List.mem_range.1 ha) (List.mem_range.1 hb) he he').1
  · refine List.Pairwise.imp_of_mem ?_ (List.nodup_range (n := m))
    intro a b _ _ hab
    rw [Function.onFun, List.disjoint_left]
    intro e he he'
    simp only [List.mem_flatMap, List.mem_range] at he he'
    obtain ⟨i, hi, he⟩ := he
    obtain ⟨i', hi', he'⟩ := he'
    exact hab (cell_inj hn hi hi' he he').2

/-- Directed boundary edges, in the orientation of the triangles. -/
def IsBnd (n m : ℕ) (e : G × G) : Prop :=
  (∃ i < n, e = ((nx n i, 0), (i, 0))) ∨ (∃ i < n, e = ((i, m), (nx n i, m)))

/-- Previous polar index. -/
def pv (n i : ℕ) : ℕ := if i = 0 then n - 1 else i - 1

theorem nx_pv {n i : ℕ} (h : i < n) : nx n (pv n i) = i ∧ pv n i < n := by
  unfold nx pv; split_ifs <;> omega

theorem bnd_mem {n m : ℕ} (hm : 1 ≤ m) {e : G × G} (h : IsBnd n m e) : e ∈ dirs n m := by
  rw [mem_dirs]
  rcases h with ⟨i, hi, rfl⟩ | ⟨i, hi, rfl⟩
  · exact ⟨0, by omega, i, hi, by rw [mem_cell]; simp⟩
  · refine ⟨m - 1, by omega, i, hi, ?_⟩
    have : m - 1 + 1 = m := by omega
    rw [mem_cell, this]; simp

theorem reverse_iff {n m : ℕ} (hn : 3 ≤ n) {e : G × G} (h : e ∈ dirs n m) :
    (e.2, e.1) ∈ dirs n m ↔ ¬ IsBnd n m e := by
  constructor
  · intro h' hb
    rw [mem_dirs] at h'
    obtain ⟨j, hj, i, hi, h'⟩ := h'
    rw [mem_cell] at h'
    rcases hb with ⟨k, hk, rfl⟩ | ⟨k, hk, rfl⟩ <;> simp only [Prod.mk.injEq, nx] at h' <;>
      by_cases h1 : i + 1 = n <;> by_cases h2 : k + 1 = n <;>
      simp only [h1, h2, if_true, if_false] at h' <;> omega
  · intro hb
    rw [mem_dirs] at h ⊢
    obtain ⟨j, hj, i, hi, h⟩ := h
    rw [mem_cell] at h
    rcases h with rfl | rfl | rfl | rfl | rfl | rfl
    · obtain ⟨h1, h2⟩ := nx_pv hi
      exact ⟨j, hj, pv n i, h2, by rw [mem_cell, h1]; simp⟩
    · exact ⟨j, hj, i, hi, by rw [mem_cell]; simp⟩
    · have hj0 : j ≠ 0 := fun h0 => hb (.inl ⟨i, hi, by rw [h0]⟩)
      refine ⟨j - 1, by omega, i, hi, ?_⟩
      have : j - 1 + 1 = j := by omega
      rw [mem_cell, this]; simp
    · have hjm : j + 1 ≠ m := fun h0 => hb (.inr ⟨i, hi, by rw [h0]⟩)
      exact ⟨j + 1, by omega, i, hi, by rw [mem_cell]; simp⟩
    · exact ⟨j, hj, nx n i, nx_lt hi, by rw [mem_cell]; simp⟩
    · exact ⟨j, hj, i, hi, by rw [mem_cell]; simp⟩

/-- The listed boundary edges are the directed boundary edges, up to orientation. -/
theorem bnd_listed {n m o : ℕ} (hn : 3 ≤ n) {a b : G} :
    (∃ k, ((a, b), k) ∈ bnd n m o ∨ ((b, a), k) ∈ bnd n m o) ↔
      IsBnd n m (a, b) ∨ IsBnd n m (b, a) := by
  have key : ∀ a b : G, (∃ k, ((a, b), k) ∈ bnd n m o) ↔
      (∃ i < n, (a, b) = ((i, 0), (nx n i, 0))) ∨
      (∃ i < n, i + 1 ≠ n ∧ (a, b) = ((i, m), (nx n i, m))) ∨ (a, b) = ((0, m), (n - 1, m)) := by
    intro a b
    simp only [bnd, List.mem_append, List.mem_map, List.mem_range, List.mem_singleton]
    constructor
    · rintro ⟨k, (⟨i, hi, h⟩ | ⟨i, hi, h⟩) | h⟩
      · simp only [Prod.mk.injEq] at h
        exact .inl ⟨i, hi, by rw [← h.1.1, ← h.1.2]; rfl⟩
      · simp only [Prod.mk.injEq] at h
        refine .inr (.inl ⟨i, by omega, by omega, ?_⟩)
        rw [← h.1.1, ← h.1.2, nx, if_neg (by omega)]
      · simp only [Prod.mk.injEq] at h
        exact .inr (.inr (by rw [h.1.1, h.1.2]))
    · rintro (⟨i, hi, h⟩ | ⟨i, hi, h1, h⟩ | h)
      · exact ⟨1, .inl (.inl ⟨i, hi, by rw [h]; rfl⟩)⟩
      · exact ⟨_, .inl (.inr ⟨i, by omega, by rw [h, nx, if_neg h1]⟩)⟩
      · exact ⟨3, .inr (by rw [h])⟩
  simp only [exists_or, key, IsBnd, Prod.mk.injEq]
  constructor
  · rintro ((⟨i, hi, h1, h2⟩ | ⟨i, hi, h0, h1, h2⟩ | ⟨h1, h2⟩) |
      (⟨i, hi, h1, h2⟩ | ⟨i, hi, h0, h1, h2⟩ | ⟨h1, h2⟩))
    · exact .inr (.inl ⟨i, hi, h2, h1⟩)
    · exact .inl (.inr ⟨i, hi, h1, h2⟩)
    · exact .inr (.inr ⟨n - 1, by omega, h2, by rw [nx, if_pos (by omega)]; exact h1⟩)
    · exact .inl (.inl ⟨i, hi, h2, h1⟩)
    · exact .inr (.inr ⟨i, hi, h1, h2⟩)
    · exact .inl (.inr ⟨n - 1, by omega, h2, by rw [nx, if_pos (by omega)]; exact h1⟩)
  · rintro ((⟨i, hi, h1, h2⟩ | ⟨i, hi, h1, h2⟩) | (⟨i, hi, h1, h2⟩ | ⟨i, hi, h1, h2⟩))
    · exact .inr (.inl ⟨i, hi, h2, h1⟩)
    · by_cases hc : i + 1 = n
      · refine .inr (.inr (.inr ⟨?_, ?_⟩))
        · rw [h2, nx, if_pos hc]
        · rw [h1]; congr 1; omega
      · exact .inl (.inr (.inl ⟨i, hi, hc, h1, h2⟩))
    · exact .inl (.inl ⟨i, hi, h2, h1⟩)
    · by_cases hc : i + 1 = n
      · refine .inl (.inr (.inr ⟨?_, ?_⟩))
        · rw [h2, nx, if_pos hc]
        · rw [h1]; congr 1; omega
      · exact .inr (.inr (.inl ⟨i, hi, hc, h1, h2⟩))

/-- Numbers of a directed edge. -/
def numE (n : ℕ) (e : G × G) : ℕ × ℕ := (vtx n e.1, vtx n e.2)

theorem dirs_num (n m : ℕ) : ((tris n m).map (num3 n)).flatMap dir3 = (dirs n m).map (numE n) := by
  unfold dirs
  rw [flatMap_map, List.map_flatMap]
  rfl

theorem dirs_bound {n m : ℕ} {e : G × G} (h : e ∈ dirs n m) : e.1.1 < n ∧ e.2.1 < n := by
  unfold dirs at h
  obtain ⟨t, ht, he⟩ := List.mem_flatMap.1 h
  obtain ⟨a, b, c⟩ := tris_bound ht
  simp only [dir3, List.mem_cons, List.not_mem_nil, or_false] at he
  rcases he with rfl | rfl | rfl <;> simp only <;> omega

theorem mem_dirs_num {n m : ℕ} {a b : G} (ha : a.1 < n) (hb : b.1 < n) :
    (vtx n a, vtx n b) ∈ (dirs n m).map (numE n) ↔ (a, b) ∈ dirs n m := by
  rw [List.mem_map]
  constructor
  · rintro ⟨e, he, h⟩
    obtain ⟨h1, h2⟩ := dirs_bound he
    simp only [numE, Prod.mk.injEq] at h
    have e1 := vtx_inj h1 ha h.1
    have e2 := vtx_inj h2 hb h.2
    rw [← e1, ← e2]; exact he
  · intro h; exact ⟨_, h, rfl⟩

theorem dirs_num_nodup {n m : ℕ} (hn : 3 ≤ n) : ((dirs n m).map (numE n)).Nodup := by
  refine List.Nodup.map_on ?_ (dirs_nodup hn)
  intro x hx y hy h
  obtain ⟨h1, h2⟩ := dirs_bound hx
  obtain ⟨h3, h4⟩ := dirs_bound hy
  simp only [numE, Prod.mk.injEq] at h
  exact Prod.ext (vtx_inj h1 h3 h.1) (vtx_inj h2 h4 h.2)

theorem mem_bnd_num {n m o : ℕ} (hn : 1 ≤ n) {a b : G} (ha : a.1 < n) (hb : b.1 < n) {k : ℕ} :
    ((vtx n a, vtx n b), k) ∈ (bnd n m o).map (num2 n) ↔ ((a, b), k) ∈ bnd n m o := by
  rw [List.mem_map]
  constructor
  · rintro ⟨e, he, h⟩
    obtain ⟨⟨h1, -⟩, h2, -⟩ := bnd_bound hn he
    simp only [num2, Prod.mk.injEq] at h
    have e1 := vtx_inj h1 ha h.1.1
    have e2 := vtx_inj h2 hb h.1.2
    have : e = ((a, b), k) := Prod.ext (Prod.ext e1 e2) h.2
    rw [← this]; exact he
  · intro h; exact ⟨_, h, rfl⟩

end Dream.OM
