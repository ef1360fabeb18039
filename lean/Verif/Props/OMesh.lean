import Verif.Lemmas.OMesh
import Mathlib.Data.Sym.Sym2

/-!
# C44: the O-mesh generator
-/

namespace Dream
open OM

/-- The directed edges of the triangles. -/
def Spec.directedEdges (M : OMesh) : List (ℕ × ℕ) :=
  M.triangles.flatMap fun t => [(t.1, t.2.1), (t.2.1, t.2.2), (t.2.2, t.1)]

/-- The numbers accepted by the argument checks that are positive. -/
def Spec.Admissible (n_polar n_radial : ℤ) : Prop :=
  0 < n_polar ∧ 0 < n_radial ∧ n_polar % 4 = 0 ∧ n_radial % 2 = 0 ∧ 2 * n_radial ≤ n_polar

theorem admissible_lift {np nr : ℤ} (h : Spec.Admissible np nr) : ∃ n m : ℕ, np = n ∧ nr = m ∧
    4 ≤ n ∧ 1 ≤ m ∧ n % 4 = 0 ∧ m % 2 = 0 ∧ m ≤ n / 2 := by
  obtain ⟨h1, h2, h3, h4, h5⟩ := h
  refine ⟨np.toNat, nr.toNat, by omega, by omega, by omega, by omega, by omega, by omega, by omega⟩

theorem points_getElem (n m : ℕ) (hn : 0 < n) (k : ℕ) (hk : k < (m + 1) * n) :
    ((List.range (m + 1)).flatMap fun (j : ℕ) =>
      (List.range n).map fun (i : ℕ) => ((i : ℤ), (j : ℤ)))[k]?
      = some (((k % n : ℕ) : ℤ), ((k / n : ℕ) : ℤ)) := by
  have key : ∀ m : ℕ, ((List.range m).flatMap fun (j : ℕ) =>
      (List.range n).map fun (i : ℕ) => ((i : ℤ), (j : ℤ)))
      = (List.range (m * n)).map fun (k : ℕ) => (((k % n : ℕ) : ℤ), ((k / n : ℕ) : ℤ)) := by
    intro m
    induction m with
    | zero => simp
    | succ m ih =>
      rw [List.range_succ, List.flatMap_append, ih, show (m + 1) * n = m * n + n by ring,
        List.range_add, List.map_append, List.map_map]
      congr 1
      simp only [List.flatMap_cons, List.flatMap_nil, List.append_nil]
      apply List.map_congr_left
      intro i hi
      have hi' := List.mem_range.1 hi
      have e1 : (m * n + i) % n = i := by
        rw [Nat.add_comm, Nat.add_mul_mod_self_right, Nat.mod_eq_of_lt hi']
      have e2 : (m * n + i) / n = m := by
        rw [Nat.add_comm, Nat.add_mul_div_right _ _ hn, Nat.div_eq_of_lt hi', Nat.zero_add]
      simp only [Function.comp, e1, e2]
  rw [key, List.getElem?_map, List.getElem?_range hk]
  rfl

theorem points_vtx (n m : ℕ) {p : G} (hp : p.1 < n) (hq : p.2 ≤ m) :
    ((List.range (m + 1)).flatMap fun (j : ℕ) =>
      (List.range n).map fun (i : ℕ) => ((i : ℤ), (j : ℤ)))[vtx n p]?
      = some ((p.1 : ℤ), (p.2 : ℤ)) := by
  rw [points_getElem n m (by omega) _ (vtx_lt hp hq)]
  unfold vtx
  rw [Nat.add_mul_mod_self_right, Nat.mod_eq_of_lt hp, Nat.add_mul_div_right _ _ (by omega),
    Nat.div_eq_of_lt hp, Nat.zero_add]

theorem bnd_sym_nodup {n m o : ℕ} (hn : 3 ≤ n) (hm : 1 ≤ m) :
    ((bnd n m o).map fun e => s(e.1.1, e.1.2)).Nodup := by
  unfold bnd
  simp only [List.map_append, List.map_map, List.map_cons, List.map_nil]
  rw [List.nodup_append, List.nodup_append]
  refine ⟨⟨?_, ?_, ?_⟩, by simp, ?_⟩
  · refine List.Nodup.map_on ?_ List.nodup_range
    intro i hi k hk h
    have hi' := List.mem_range.1 hi
    have hk' := List.mem_range.1 hk
    simp only [Function.comp, Sym2.eq_iff, Prod.mk.injEq] at h
    by_cases h1 : i + 1 = n <;> by_cases h2 : k + 1 = n <;>
      simp only [h1, h2, if_true, if_false] at h <;> omega
  · refine List.Nodup.map_on ?_ List.nodup_range
    intro i hi k hk h
    simp only [Function.comp, Sym2.eq_iff, Prod.mk.injEq] at h
    omega
  · intro a ha b hb
    simp only [List.mem_map, Function.comp] at ha hb
    obtain ⟨i, hi, rfl⟩ := ha
    obtain ⟨k, hk, rfl⟩ := hb
    simp only [ne_eq, Sym2.eq_iff, Prod.mk.injEq]
    omega
  · intro a ha b hb
    simp only [List.mem_append, List.mem_map, Function.comp, List.mem_singleton, List.mem_range] at ha hb
    subst hb
    rcases ha with ⟨i, hi, rfl⟩ | ⟨i, hi, rfl⟩ <;>
    · simp only [ne_eq, Sym2.eq_iff, Prod.mk.injEq]
      omega

theorem tris_length (n m : ℕ) : (tris n m).length = 2 * n * m := by
  unfold tris
  have : ∀ i j, (tri n i j).length = 2 := by intro i j; unfold tri; split_ifs <;> rfl
  simp [List.length_flatMap, this]
  ring

/-- **C44** For all positive admissible numbers of elements the generator succeeds; it makes
`n_polar * (n_radial + 1)` points, the point number `k` being the one with polar index
`k mod n_polar` and radial index `k div n_polar`, `2 * n_polar * n_radial` triangles and `2 * n_polar`
boundary edges, all with vertex numbers in range. -/
theorem C44_size {np nr : ℤ} (h : Spec.Admissible np nr) :
    ∃ M, getCylinderOMesh np nr = .ok M ∧ (M.points.length : ℤ) = np * (nr + 1) ∧
      (∀ k, k < M.points.length → M.points[k]? = some ((k : ℤ) % np, (k : ℤ) / np)) ∧
      (M.triangles.length : ℤ) = 2 * np * nr ∧ (M.edges.length : ℤ) = 2 * np ∧
      (∀ t ∈ M.triangles, t.1 < M.points.length ∧ t.2.1 < M.points.length ∧
        t.2.2 < M.points.length) ∧
      (∀ e ∈ M.edges, e.1.1 < M.points.length ∧ e.1.2 < M.points.length) := by
  obtain ⟨n, m, rfl, rfl, hn, hm, h4, h2, hle⟩ := admissible_lift h
  obtain ⟨ps, h1, hps⟩ := mesh_eq n m (by omega) hm h4 h2 hle
  have hlen : ps.length = (m + 1) * n := by
    rw [hps]; simp [List.length_flatMap]
  refine ⟨_, h1, ?_, ?_, ?_, ?_, ?_, ?_⟩ <;> simp only [hlen]
  · push_cast; ring
  · intro k hk
    rw [hps, points_getElem n m (by omega) k hk]
    simp
  · rw [List.length_map, tris_length]; push_cast; ring
  · simp only [List.length_map, bnd, List.length_append, List.length_range, List.length_cons,
      List.length_nil]
    omega
  · intro t ht
    obtain ⟨g, hg, rfl⟩ := List.mem_map.1 ht
    obtain ⟨⟨a1, a2⟩, ⟨b1, b2⟩, c1, c2⟩ := tris_bound hg
    exact ⟨vtx_lt a1 a2, vtx_lt b1 b2, vtx_lt c1 c2⟩
  · intro t ht
    obtain ⟨g, hg, rfl⟩ := List.mem_map.1 ht
    obtain ⟨⟨a1, a2⟩, b1, b2⟩ := bnd_bound (by omega) hg
    exact ⟨vtx_lt a1 a2, vtx_lt b1 b2⟩

/-- **C44** The mesh is conforming: no directed edge belongs to two triangles (or twice to one), an edge
of a triangle belongs in the opposite direction to another one exactly if it is not one of the listed
boundary edges, every boundary edge belongs to a triangle, and no boundary edge is listed twice in
either direction. -/
theorem C44_conforming {np nr : ℤ} (h : Spec.Admissible np nr) :
    ∃ M, getCylinderOMesh np nr = .ok M ∧ (Spec.directedEdges M).Nodup ∧
      (∀ a b, (a, b) ∈ Spec.directedEdges M → ((b, a) ∈ Spec.directedEdges M ↔
        ¬ ∃ k, ((a, b), k) ∈ M.edges ∨ ((b, a), k) ∈ M.edges)) ∧
      (∀ a b k, ((a, b), k) ∈ M.edges →
        (a, b) ∈ Spec.directedEdges M ∨ (b, a) ∈ Spec.directedEdges M) ∧
      (M.edges.map fun e => s(e.1.1, e.1.2)).Nodup := by
  obtain ⟨n, m, rfl, rfl, hn, hm, h4, h2, hle⟩ := admissible_lift h
  obtain ⟨ps, h1, hps⟩ := mesh_eq n m (by omega) hm h4 h2 hle
  have hD : Spec.directedEdges ⟨ps, (tris n m).map (num3 n),
      (bnd n m (n / 4 - m / 2)).map (num2 n)⟩ = (dirs n m).map (numE n) := dirs_num n m
  refine ⟨_, h1, ?_, ?_, ?_, ?_⟩
  · rw [hD]; exact dirs_num_nodup (by omega)
  · intro a b hab
    rw [hD] at hab ⊢
    obtain ⟨e, he, heq⟩ := List.mem_map.1 hab
    obtain ⟨b1, b2⟩ := dirs_bound he
    simp only [numE, Prod.mk.injEq] at heq
    obtain ⟨rfl, rfl⟩ := heq
    simp only
    rw [mem_dirs_num b2 b1, reverse_iff (by omega) he]
    simp only [mem_bnd_num (show 1 ≤ n by omega) b1 b2, mem_bnd_num (show 1 ≤ n by omega) b2 b1]
    rw [bnd_listed (by omega)]
    constructor
    · rintro hb (h' | h')
      · exact hb h'
      · have := bnd_mem hm h'
        have h3 := (reverse_iff (by omega) this).1 he
        exact h3 h'
    · intro hb hb'
      exact hb (.inl hb')
  · intro a b k hab
    rw [hD]
    obtain ⟨e, he, heq⟩ := List.mem_map.1 hab
    obtain ⟨⟨b1, -⟩, b2, -⟩ := bnd_bound (by omega) he
    simp only [num2, Prod.mk.injEq] at heq
    obtain ⟨⟨rfl, rfl⟩, rfl⟩ := heq
    rw [mem_dirs_num b2 b1, mem_dirs_num b1 b2]
    have := (bnd_listed (m := m) (o := n / 4 - m / 2) (show 3 ≤ n by omega) (a := e.1.1)
      (b := e.1.2)).1 ⟨e.2, .inl he⟩
    rcases this with h' | h'
    · exact .inl (bnd_mem hm h')
    · exact .inr (bnd_mem hm h')
  · rw [List.map_map]
    have hs := bnd_sym_nodup (n := n) (m := m) (o := n / 4 - m / 2) (by omega) hm
    rw [List.Nodup, List.pairwise_map] at hs ⊢
    refine List.Pairwise.imp_of_mem ?_ hs
    intro e e' he he' hne heq
    apply hne
    obtain ⟨⟨a1, -⟩, a2, -⟩ := bnd_bound (by omega) he
    obtain ⟨⟨b1, -⟩, b2, -⟩ := bnd_bound (by omega) he'
    simp only [Function.comp, num2, Sym2.eq_iff] at heq ⊢
    rcases heq with ⟨x, y⟩ | ⟨x, y⟩
    · exact .inl ⟨vtx_inj a1 b1 x, vtx_inj a2 b2 y⟩
    · exact .inr ⟨vtx_inj a1 b2 x, vtx_inj a2 b1 y⟩

theorem filter_compl {α : Type} (p : α → Bool) (l : List α) :
    (l.filter p).length + (l.filter fun a => !p a).length = l.length := by
  induction l with
  | nil => rfl
  | cons a t ih =>
    cases h : p a <;> simp [h] <;> omega

/-- **C44** Edges with index 1 are on the inner circle, the others on the outer circle; of the latter
exactly one half has index 2, the other half index 3. -/
theorem C44_boundary {np nr : ℤ} (h : Spec.Admissible np nr) :
    ∃ M, getCylinderOMesh np nr = .ok M ∧
      (∀ e ∈ M.edges, (e.2 = 1 ∨ e.2 = 2 ∨ e.2 = 3) ∧ ∀ v, v = e.1.1 ∨ v = e.1.2 →
        ∃ i, M.points[v]? = some (i, if e.2 = 1 then 0 else nr)) ∧
      ((M.edges.filter fun e => e.2 = 1).length : ℤ) = np ∧
      2 * ((M.edges.filter fun e => e.2 = 2).length : ℤ) = np ∧
      2 * ((M.edges.filter fun e => e.2 = 3).length : ℤ) = np := by
  obtain ⟨n, m, rfl, rfl, hn, hm, h4, h2, hle⟩ := admissible_lift h
  obtain ⟨ps, h1, hps⟩ := mesh_eq n m (by omega) hm h4 h2 hle
  refine ⟨_, h1, ?_, ?_⟩
  · intro e he
    obtain ⟨g, hg, rfl⟩ := List.mem_map.1 he
    obtain ⟨⟨a1, a2⟩, b1, b2⟩ := bnd_bound (by omega) hg
    have hpa := points_vtx n m a1 a2
    have hpb := points_vtx n m b1 b2
    rw [← hps] at hpa hpb
    have key : (g.2 = 1 ∨ g.2 = 2 ∨ g.2 = 3) ∧ (g.1.1.2 = if g.2 = 1 then 0 else m) ∧
        (g.1.2.2 = if g.2 = 1 then 0 else m) := by
      simp only [bnd, List.mem_append, List.mem_map, List.mem_range, List.mem_singleton] at hg
      rcases hg with (⟨i, hi, rfl⟩ | ⟨i, hi, rfl⟩) | rfl
      · simp
      · by_cases hc : n / 4 - m / 2 ≤ i ∧ i < n / 2 + (n / 4 - m / 2)
        · simp [hc]
        · rw [if_neg hc]; simp
      · simp
    refine ⟨key.1, ?_⟩
    simp only [num2]
    have hc : ((if g.2 = 1 then 0 else m : ℕ) : ℤ) = if g.2 = 1 then (0 : ℤ) else m := by
      split_ifs <;> simp
    rintro v (rfl | rfl)
    · refine ⟨(g.1.1.1 : ℤ), ?_⟩
      refine hpa.trans ?_
      rw [key.2.1, hc]; rfl
    · refine ⟨(g.1.2.1 : ℤ), ?_⟩
      refine hpb.trans ?_
      rw [key.2.2, hc]; rfl
  · set o := n / 4 - m / 2 with ho
    have hcount : ∀ l : ℕ, ((List.range l).filter fun i => decide (o ≤ i ∧ i < n / 2 + o)).length
        + ((List.range l).filter fun i => !decide (o ≤ i ∧ i < n / 2 + o)).length = l := by
      intro l
      rw [filter_compl, List.length_range]
    have htwo : ∀ l : ℕ, n / 2 + o ≤ l →
        ((List.range l).filter fun i => decide (o ≤ i ∧ i < n / 2 + o)).length = n / 2 := by
      intro l hl
      have : (List.range l).filter (fun i => decide (o ≤ i ∧ i < n / 2 + o))
          = (List.range (n / 2)).map (fun (i : ℕ) => o + i) := by
        rw [show l = o + (n / 2 + (l - (n / 2 + o))) by omega, List.range_add, List.range_add,
          List.filter_append, List.map_append, List.filter_append]
        rw [List.filter_eq_nil_iff.2, List.filter_eq_self.2, List.filter_eq_nil_iff.2]
        · simp
        · intro a ha
          simp only [List.map_map, List.mem_map, List.mem_range, Function.comp] at ha
          obtain ⟨c, hc, rfl⟩ := ha
          simp only [decide_eq_true_eq]; omega
        · intro a ha
          simp only [List.mem_map, List.mem_range] at ha
          obtain ⟨c, hc, rfl⟩ := ha
          simp only [decide_eq_true_eq]; omega
        · intro a ha
          have := List.mem_range.1 ha
          simp only [decide_eq_true_eq]; omega
      rw [this]; simp
    have h3 := hcount (n - 1)
    have h4' := htwo (n - 1) (by omega)
    have f1 : ∀ k : ℕ, (((bnd n m o).map (num2 n)).filter fun e => e.2 = k).length
        = ((bnd n m o).filter fun e => e.2 = k).length := by
      intro k
      rw [List.filter_map, List.length_map]; rfl
    have g1 : ((bnd n m o).filter fun e => e.2 = 1).length = n := by
      unfold bnd
      simp only [List.filter_append, List.length_append]
      rw [List.filter_map, List.filter_map]
      have e1 : (List.range n).filter ((fun (e : (G × G) × ℕ) => decide (e.2 = 1)) ∘ fun (i : ℕ) =>
          (((i, 0), ((if i + 1 = n then 0 else i + 1), 0)), 1)) = List.range n := by
        rw [List.filter_eq_self]; intro a _; rfl
      have e2 : (List.range (n - 1)).filter ((fun (e : (G × G) × ℕ) => decide (e.2 = 1)) ∘
          fun (i : ℕ) => (((i, m), (i + 1, m)), if o ≤ i ∧ i < n / 2 + o then 2 else 3)) = [] := by
        rw [List.filter_eq_nil_iff]; intro a _
        simp only [Function.comp]; split_ifs <;> simp
      rw [e1, e2]; simp
    have g2 : ((bnd n m o).filter fun e => e.2 = 2).length = n / 2 := by
      unfold bnd
      simp only [List.filter_append, List.length_append]
      rw [List.filter_map, List.filter_map]
      have e1 : (List.range n).filter ((fun (e : (G × G) × ℕ) => decide (e.2 = 2)) ∘ fun (i : ℕ) =>
          (((i, 0), ((if i + 1 = n then 0 else i + 1), 0)), 1)) = [] := by
        rw [List.filter_eq_nil_iff]; intro a _; simp
      have e2 : (List.range (n - 1)).filter ((fun (e : (G × G) × ℕ) => decide (e.2 = 2)) ∘
          fun (i : ℕ) => (((i, m), (i + 1, m)), if o ≤ i ∧ i < n / 2 + o then 2 else 3))
          = (List.range (n - 1)).filter fun i => decide (o ≤ i ∧ i < n / 2 + o) := by
        apply List.filter_congr; intro a _
        simp only [Function.comp]; split_ifs with hh <;> simp [hh]
      rw [e1, e2]; simp only [List.map_nil, List.length_nil, List.length_map, h4']; simp
    have g3 : ((bnd n m o).filter fun e => e.2 = 3).length = n / 2 := by
      unfold bnd
      simp only [List.filter_append, List.length_append]
      rw [List.filter_map, List.filter_map]
      have e1 : (List.range n).filter ((fun (e : (G × G) × ℕ) => decide (e.2 = 3)) ∘ fun (i : ℕ) =>
          (((i, 0), ((if i + 1 = n then 0 else i + 1), 0)), 1)) = [] := by
        rw [List.filter_eq_nil_iff]; intro a _; simp
      have e2 : (List.range (n - 1)).filter ((fun (e : (G × G) × ℕ) => decide (e.2 = 3)) ∘
          fun (i : ℕ) => (((i, m), (i + 1, m)), if o ≤ i ∧ i < n / 2 + o then 2 else 3))
          = (List.range (n - 1)).filter fun i => !decide (o ≤ i ∧ i < n / 2 + o) := by
        apply List.filter_congr; intro a _
        simp only [Function.comp]; split_ifs with hh <;> simp [hh]
      rw [e1, e2]
      simp only [List.map_nil, List.length_nil, List.length_map, List.filter_cons, decide_true,
        if_true, List.filter_nil, List.length_cons]
      omega
    simp only
    rw [f1, f1, f1, g1, g2, g3]
    omega

/-- **C44** In all other cases an exception is raised. -/
theorem C44_refused {np nr : ℤ} (h : ¬ Spec.Admissible np nr) :
    ∃ e, getCylinderOMesh np nr = .error e := by
  unfold getCylinderOMesh
  by_cases h4 : np % 4 > 0
  · exact ⟨.valueError, by rw [if_pos h4]; rfl⟩
  rw [if_neg h4]
  by_cases h2 : nr % 2 > 0
  · exact ⟨.valueError, by rw [if_pos h2]; rfl⟩
  rw [if_neg h2]
  by_cases hle : nr > Int.tdiv np 2
  · exact ⟨.valueError, by rw [if_pos hle]; rfl⟩
  rw [if_neg hle]
  simp only [bind, Except.bind, pure, Except.pure]
  have key : ∀ f : (ℤ × ℤ) × ℕ → Except PyErr ((ℕ × ℕ) × ℕ), (∀ e, f e = .error .indexError) →
      (omeshEdges np nr).mapM f = .error .indexError := by
    intro f hf
    have hne : omeshEdges np nr ≠ [] := by simp [omeshEdges]
    cases hE : omeshEdges np nr with
    | nil => exact absurd hE hne
    | cons a t => rw [List.mapM_cons, hf]; rfl
  have hidx : ∀ i, pyIndex 0 i = .error .indexError := by
    intro i; unfold pyIndex
    rw [if_neg (by push_cast; omega), if_neg (by push_cast; omega)]
  by_cases hz : 0 < np ∧ nr = 0
  · refine ⟨.zeroDivision, ?_⟩
    have : omeshPoints np nr = .error .zeroDivision := by
      unfold omeshPoints
      simp only
      rw [if_pos]
      refine ⟨?_, hz.2⟩
      rw [hz.2]
      have h0 : (0, 0) ∈ (pyRangeInt 0 (0 + 1)).flatMap fun j => (pyRangeInt 0 np).map fun i => (i, j) := by
        simp only [pyRangeInt, List.mem_flatMap, List.mem_map, List.mem_range]
        exact ⟨0, ⟨0, by norm_num, by norm_num⟩, 0, ⟨0, by omega, by norm_num⟩, rfl⟩
      exact List.ne_nil_of_mem h0
    rw [this]
  · have hcase : nr < 0 ∨ (np = 0 ∧ nr = 0) := by
      by_contra hc
      push Not at hc
      apply h
      have hnp : 0 < np := by
        by_contra hnp
        have h5 : Int.tdiv np 2 ≤ 0 := by
          have : Int.tdiv np 2 = -Int.tdiv (-np) 2 := by simp [Int.neg_tdiv]
          rw [this, Int.tdiv_eq_ediv_of_nonneg (by omega)]
          omega
        have hnr : nr = 0 := by omega
        have : np ≠ 0 := fun h0 => hc.2 h0 hnr
        have h6 : Int.tdiv np 2 < 0 := by
          have h7 : Int.tdiv np 2 = -Int.tdiv (-np) 2 := by simp [Int.neg_tdiv]
          rw [h7, Int.tdiv_eq_ediv_of_nonneg (by omega)]
          omega
        omega
      have : nr ≠ 0 := fun h0 => hz ⟨hnp, h0⟩
      rw [Int.tdiv_eq_ediv_of_nonneg (by omega)] at hle
      refine ⟨hnp, by omega, by omega, by omega, by omega⟩
    have hps : omeshPoints np nr = .ok [] := by
      have : (pyRangeInt 0 (nr + 1)).flatMap (fun j => (pyRangeInt 0 np).map fun i => (i, j)) = [] := by
        rcases hcase with hc | ⟨h5, h6⟩
        · have : pyRangeInt 0 (nr + 1) = [] := by
            unfold pyRangeInt; rw [show (nr + 1 - 0).toNat = 0 by omega]; rfl
          rw [this]; rfl
        · subst h5 h6; rfl
      unfold omeshPoints
      rw [this]
      simp
    have htr : omeshTriangles np nr = [] := by
      have : pyRangeInt 0 nr = [] := by
        unfold pyRangeInt; rw [show (nr - 0).toNat = 0 by omega]; rfl
      unfold omeshTriangles; rw [this]; rfl
    refine ⟨.indexError, ?_⟩
    rw [hps]
    simp only [List.length_nil, htr, List.mapM_nil, pure, Except.pure]
    rw [key _ fun e => by simp [hidx]]

example : Spec.Admissible 8 4 ∧ Spec.Admissible 32 6 := by
  constructor <;> refine ⟨?_, ?_, ?_, ?_, ?_⟩ <;> norm_num

/-! ### Geometry -/

noncomputable section

/-- The point of a vertex number. -/
def Spec.coord (M : OMesh) (ri ro geom : ℝ) (np nr : ℤ) (v : ℕ) : ℝ × ℝ :=
  match M.points[v]? with
  | some (i, j) => omeshCoord ri ro geom np nr i j
  | none => (0, 0)

/-- **C44** The points with radial index `j` lie on the circle with the radius of this index; it is the
inner radius for the first and the outer radius for the last index, and increases in between, for
every positive `geom`. -/
theorem C44_circles {ri ro geom : ℝ} (hg : 0 < geom) (np nr : ℤ) (hnr : 0 < nr) :
    (∀ i j, (omeshCoord ri ro geom np nr i j).1 ^ 2 + (omeshCoord ri ro geom np nr i j).2 ^ 2
      = omeshRadius ri ro geom nr j ^ 2) ∧
    omeshRadius ri ro geom nr 0 = ri ∧ omeshRadius ri ro geom nr nr = ro ∧
    (ri < ro → ∀ j k : ℤ, 0 ≤ j → j < k →
      omeshRadius ri ro geom nr j < omeshRadius ri ro geom nr k) := by
  refine ⟨fun i j => ?_, ?_, ?_, fun hr j k hj hjk => ?_⟩
  · simp only [omeshCoord]
    rw [mul_pow, mul_pow, ← mul_add, Real.cos_sq_add_sin_sq, mul_one]
  · simp [omeshRadius, Real.zero_rpow hg.ne']
  · have : (nr : ℝ) ≠ 0 := by exact_mod_cast hnr.ne'
    simp [omeshRadius, div_self this]
  · have hnr' : (0 : ℝ) < nr := by exact_mod_cast hnr
    have hj' : (0 : ℝ) ≤ j := by exact_mod_cast hj
    have hjk' : (j : ℝ) < k := by exact_mod_cast hjk
    unfold omeshRadius
    have : ((j : ℝ) / nr) ^ geom < ((k : ℝ) / nr) ^ geom :=
      Real.rpow_lt_rpow (by positivity) (div_lt_div_of_pos_right hjk' hnr') hg
    nlinarith

/-- **C44** The outer circle is split vertically: edges with index 2 lie in the half plane `x ≤ 0` (the
left side), edges with index 3 in `x ≥ 0`. -/
theorem C44_halves {np nr : ℤ} (h : Spec.Admissible np nr) {ri ro geom : ℝ} (hro : 0 ≤ ro) :
    ∃ M, getCylinderOMesh np nr = .ok M ∧ ∀ e ∈ M.edges, ∀ v, v = e.1.1 ∨ v = e.1.2 →
      (e.2 = 2 → (Spec.coord M ri ro geom np nr v).1 ≤ 0) ∧
      (e.2 = 3 → 0 ≤ (Spec.coord M ri ro geom np nr v).1) := by
  obtain ⟨n, m, rfl, rfl, hn, hm, h4, h2, hle⟩ := admissible_lift h
  obtain ⟨ps, h1, hps⟩ := mesh_eq n m (by omega) hm h4 h2 hle
  refine ⟨_, h1, ?_⟩
  have hn0 : (0 : ℝ) < n := by exact_mod_cast (by omega : 0 < n)
  have hm0 : (m : ℝ) ≠ 0 := by exact_mod_cast (by omega : m ≠ 0)
  -- the coordinate of an outer point
  have hx : ∀ i : ℕ, (omeshCoord ri ro geom n m i m).1
      = ro * Real.cos (Real.pi * ((2 * i + m : ℕ) : ℝ) / n) := by
    intro i
    simp only [omeshCoord, omeshRadius, Int.cast_natCast, div_self hm0, Real.one_rpow, mul_one,
      sub_add_cancel]
    congr 2
    push_cast; field_simp
  have hneg : ∀ i : ℕ, n ≤ 2 * (2 * i + m) → 2 * (2 * i + m) ≤ 3 * n →
      (omeshCoord ri ro geom n m i m).1 ≤ 0 := by
    intro i hi1 hi2
    rw [hx]
    apply mul_nonpos_of_nonneg_of_nonpos hro
    have e1 : (n : ℝ) ≤ 2 * ((2 * i + m : ℕ) : ℝ) := by exact_mod_cast hi1
    have e2 : 2 * ((2 * i + m : ℕ) : ℝ) ≤ 3 * n := by exact_mod_cast hi2
    apply Real.cos_nonpos_of_pi_div_two_le_of_le
    · rw [le_div_iff₀ hn0]; nlinarith [Real.pi_pos]
    · rw [div_le_iff₀ hn0]; nlinarith [Real.pi_pos]
  have hpos : ∀ i : ℕ, (2 * (2 * i + m) ≤ n ∨ (3 * n ≤ 2 * (2 * i + m) ∧ 2 * (2 * i + m) ≤ 5 * n)) →
      0 ≤ (omeshCoord ri ro geom n m i m).1 := by
    intro i hi
    rw [hx]
    apply mul_nonneg hro
    rcases hi with hi | ⟨hi1, hi2⟩
    · have e1 : 2 * ((2 * i + m : ℕ) : ℝ) ≤ n := by exact_mod_cast hi
      apply Real.cos_nonneg_of_neg_pi_div_two_le_of_le
      · have : 0 ≤ Real.pi * ((2 * i + m : ℕ) : ℝ) / n := by positivity
        linarith [Real.pi_pos]
      · rw [div_le_iff₀ hn0]; nlinarith [Real.pi_pos]
    · have e1 : 3 * (n : ℝ) ≤ 2 * ((2 * i + m : ℕ) : ℝ) := by exact_mod_cast hi1
      have e2 : 2 * ((2 * i + m : ℕ) : ℝ) ≤ 5 * n := by exact_mod_cast hi2
      rw [← Real.cos_sub_two_pi]
      apply Real.cos_nonneg_of_neg_pi_div_two_le_of_le
      · rw [le_sub_iff_add_le, le_div_iff₀ hn0]; nlinarith [Real.pi_pos]
      · rw [sub_le_iff_le_add, div_le_iff₀ hn0]; nlinarith [Real.pi_pos]
  intro e he
  obtain ⟨g, hg, rfl⟩ := List.mem_map.1 he
  obtain ⟨⟨a1, a2⟩, b1, b2⟩ := bnd_bound (by omega) hg
  have hpa := points_vtx n m a1 a2
  have hpb := points_vtx n m b1 b2
  rw [← hps] at hpa hpb
  simp only [num2, Spec.coord]
  have hva : ∀ v, v = vtx n g.1.1 ∨ v = vtx n g.1.2 → ∃ p : G, (p = g.1.1 ∨ p = g.1.2) ∧
      ps[v]? = some ((p.1 : ℤ), (p.2 : ℤ)) := by
    rintro v (rfl | rfl)
    · exact ⟨_, .inl rfl, hpa⟩
    · exact ⟨_, .inr rfl, hpb⟩
  intro v hv
  obtain ⟨p, hp, hpv⟩ := hva v hv
  rw [hpv]
  simp only
  simp only [bnd, List.mem_append, List.mem_map, List.mem_range, List.mem_singleton] at hg
  rcases hg with (⟨i, hi, rfl⟩ | ⟨i, hi, rfl⟩) | rfl
  · simp
  · simp only at hp ⊢
    have hpm : p.2 = m := by rcases hp with rfl | rfl <;> rfl
    have hpi : p.1 = i ∨ p.1 = i + 1 := by rcases hp with rfl | rfl <;> simp
    rw [hpm]
    split_ifs with hc
    · refine ⟨fun _ => hneg _ (by omega) (by omega), fun h => by omega⟩
    · refine ⟨fun h => by omega, fun _ => hpos _ (by omega)⟩
  · simp only at hp ⊢
    have hpm : p.2 = m := by rcases hp with rfl | rfl <;> rfl
    have hpi : p.1 = 0 ∨ p.1 = n - 1 := by rcases hp with rfl | rfl <;> simp
    rw [hpm]
    exact ⟨fun h => by omega, fun _ => hpos _ (by omega)⟩

/-- Twice the signed area of a triangle. -/
def Spec.area2 (a b c : ℝ × ℝ) : ℝ :=
  (b.1 - a.1) * (c.2 - a.2) - (c.1 - a.1) * (b.2 - a.2)

theorem area_polar (r s t a b c : ℝ) :
    Spec.area2 (r * Real.cos a, r * Real.sin a) (s * Real.cos b, s * Real.sin b)
      (t * Real.cos c, t * Real.sin c)
      = r * s * Real.sin (b - a) + s * t * Real.sin (c - b) - r * t * Real.sin (c - a) := by
  simp only [Spec.area2, Real.sin_sub]
  ring

/-- **C44** Shape of the triangles of a cell: the triangle on the inner circle of the layer is always
positively oriented; the one on the outer circle is so exactly if
`r_j < r_{j+1} * cos(pi / n_polar)`, and inverted exactly in the opposite case. -/
theorem C44_orientation {ri ro geom : ℝ} (hri : 0 < ri) (hr : ri < ro) (hg : 0 < geom) {np nr : ℤ}
    (h : Spec.Admissible np nr) (i j : ℤ) (hj : 0 ≤ j) :
    0 < Spec.area2 (omeshCoord ri ro geom np nr i j) (omeshCoord ri ro geom np nr i (j + 1))
      (omeshCoord ri ro geom np nr (i + 1) j) ∧
    (0 < Spec.area2 (omeshCoord ri ro geom np nr i (j + 1))
        (omeshCoord ri ro geom np nr (i + 1) (j + 1)) (omeshCoord ri ro geom np nr (i + 1) j) ↔
      omeshRadius ri ro geom nr j
        < omeshRadius ri ro geom nr (j + 1) * Real.cos (Real.pi / np)) ∧
    (Spec.area2 (omeshCoord ri ro geom np nr i (j + 1))
        (omeshCoord ri ro geom np nr (i + 1) (j + 1)) (omeshCoord ri ro geom np nr (i + 1) j) < 0 ↔
      omeshRadius ri ro geom nr (j + 1) * Real.cos (Real.pi / np)
        < omeshRadius ri ro geom nr j) := by
  obtain ⟨h1, h2, h3, h4, h5⟩ := h
  obtain ⟨-, -, -, hmono⟩ := C44_circles (ri := ri) (ro := ro) hg np nr h2
  have hlt := hmono hr j (j + 1) hj (by omega)
  have hrj : 0 < omeshRadius ri ro geom nr j := by
    unfold omeshRadius
    have h2' : (0 : ℝ) < nr := by exact_mod_cast h2
    have hj' : (0 : ℝ) ≤ j := by exact_mod_cast hj
    have : 0 ≤ ((j : ℝ) / nr) ^ geom := Real.rpow_nonneg (by positivity) _
    nlinarith
  set r := omeshRadius ri ro geom nr j
  set s := omeshRadius ri ro geom nr (j + 1)
  have hnp : (4 : ℝ) ≤ np := by exact_mod_cast (by omega : (4 : ℤ) ≤ np)
  have hnp0 : (np : ℝ) ≠ 0 := by positivity
  set θ := Real.pi / np with hθ
  have hθ0 : 0 < θ := by positivity
  have hθ1 : θ ≤ Real.pi / 4 := div_le_div_of_nonneg_left Real.pi_pos.le (by norm_num) hnp
  have hsin : 0 < Real.sin θ := Real.sin_pos_of_pos_of_lt_pi hθ0 (by linarith [Real.pi_pos])
  have hcos1 : Real.cos θ ≤ 1 := Real.cos_le_one θ
  have hcos0 : 0 < Real.cos θ :=
    Real.cos_pos_of_mem_Ioo ⟨by linarith [Real.pi_pos], by linarith [Real.pi_pos]⟩
  have e2 : Real.sin (2 * θ) = 2 * Real.sin θ * Real.cos θ := Real.sin_two_mul θ
  simp only [omeshCoord]
  rw [area_polar, area_polar]
  push_cast
  have a1 : 2 * Real.pi * i / np + Real.pi / np * (j + 1) - (2 * Real.pi * i / np + Real.pi / np * j)
      = θ := by rw [hθ]; ring
  have a2 : 2 * Real.pi * (i + 1) / np + Real.pi / np * j
      - (2 * Real.pi * i / np + Real.pi / np * (j + 1)) = θ := by rw [hθ]; ring
  have a3 : 2 * Real.pi * (i + 1) / np + Real.pi / np * j
      - (2 * Real.pi * i / np + Real.pi / np * j) = 2 * θ := by rw [hθ]; ring
  have a4 : 2 * Real.pi * (i + 1) / np + Real.pi / np * (j + 1)
      - (2 * Real.pi * i / np + Real.pi / np * (j + 1)) = 2 * θ := by rw [hθ]; ring
  have a5 : 2 * Real.pi * (i + 1) / np + Real.pi / np * j
      - (2 * Real.pi * (i + 1) / np + Real.pi / np * (j + 1)) = -θ := by rw [hθ]; ring
  rw [a1, a2, a3, a4, a5, Real.sin_neg, e2]
  constructor
  · have : r * s * Real.sin θ + s * r * Real.sin θ - r * r * (2 * Real.sin θ * Real.cos θ)
        = 2 * r * Real.sin θ * (s - r * Real.cos θ) := by ring
    rw [this]
    have : 0 < s - r * Real.cos θ := by nlinarith
    positivity
  · have : s * s * (2 * Real.sin θ * Real.cos θ) + s * r * -Real.sin θ - s * r * Real.sin θ
        = 2 * s * Real.sin θ * (s * Real.cos θ - r) := by ring
    rw [this]
    have hs : 0 < s := hrj.trans hlt
    have hk : 0 < 2 * s * Real.sin θ := by positivity
    exact ⟨by rw [mul_pos_iff_of_pos_left hk, sub_pos], by
      rw [mul_neg_iff, sub_neg, and_iff_right hk, or_iff_left (fun h => absurd h.1 hk.not_gt)]⟩

/-- **C44** The argument checks do not prevent inverted elements: for radii 1 and 2, four polar and two
radial elements are accepted, and the outer triangles of the second layer have negative area. -/
theorem C44_fails_inverted : Spec.Admissible 4 2 ∧
    ∀ i : ℤ, Spec.area2 (omeshCoord 1 2 1 4 2 i 2) (omeshCoord 1 2 1 4 2 (i + 1) 2)
      (omeshCoord 1 2 1 4 2 (i + 1) 1) < 0 := by
  have hA : Spec.Admissible 4 2 := by refine ⟨?_, ?_, ?_, ?_, ?_⟩ <;> norm_num
  refine ⟨hA, fun i => ?_⟩
  have := (C44_orientation (ri := 1) (ro := 2) (geom := 1) one_pos (by norm_num) one_pos hA i 1
    (by norm_num)).2.2
  have h2 : (1 + 1 : ℤ) = 2 := by norm_num
  rw [h2] at this
  refine this.2 ?_
  have e1 : omeshRadius 1 2 1 2 1 = 3 / 2 := by norm_num [omeshRadius]
  have e2 : omeshRadius 1 2 1 2 2 = 2 := by norm_num [omeshRadius]
  rw [e1, e2]
  push_cast
  rw [Real.cos_pi_div_four]
  have : Real.sqrt 2 < 3 / 2 := by
    rw [Real.sqrt_lt' (by norm_num)]; norm_num
  linarith

end

end Dream
