import Verif.Model.Initial
import Verif.Props.Conditions
import Verif.Props.Boundary

/-!
# C70: initial states
-/

noncomputable section

namespace Dream
open Spec

variable {n : ℕ}

theorem materialCF_append {α : Type} (a b : Dict Name α) (r : Name) :
    materialCF (a ++ b) r = (materialCF b r).or (materialCF a r) := by
  have key : ∀ (l : Dict Name α) (o : Option α),
      l.foldl (fun acc kv => if r ∈ splitBar kv.1 then some kv.2 else acc) o
        = (materialCF l r).or o := by
    intro l
    induction l with
    | nil => intro o; simp [materialCF]
    | cons x t ih =>
      intro o
      rw [materialCF, List.foldl_cons, List.foldl_cons, ih, ih (if r ∈ splitBar x.1 then _ else _)]
      split_ifs
      · cases materialCF t r <;> rfl
      · cases materialCF t r <;> rfl
  rw [materialCF, List.foldl_append, key]
  rfl

theorem materialCF_none {α : Type} {l : Dict Name α} {r : Name} :
    materialCF l r = none ↔ ∀ kv ∈ l, r ∉ splitBar kv.1 := by
  induction l using List.reverseRecOn with
  | nil => simp [materialCF]
  | append_singleton l x ih =>
    rw [materialCF_append]
    by_cases hx : r ∈ splitBar x.1
    · simp only [materialCF, List.foldl_cons, hx, if_true, List.foldl_nil, Option.some_or,
        reduceCtorEq, false_iff]
      exact fun h => h x (by simp) hx
    · simp only [materialCF, List.foldl_cons, hx, if_false, List.foldl_nil, Option.none_or,
        List.mem_append, List.mem_singleton]
      rw [← materialCF, ih]
      constructor
      · rintro h kv (h1 | rfl)
        · exact h kv h1
        · exact hx
      · exact fun h kv hk => h kv (.inl hk)

theorem materialCF_some {α : Type} {l : Dict Name α} {r : Name} {a : α}
    (h : materialCF l r = some a) : ∃ p, (p, a) ∈ l ∧ r ∈ splitBar p := by
  induction l using List.reverseRecOn with
  | nil => simp [materialCF] at h
  | append_singleton l x ih =>
    rw [materialCF_append] at h
    by_cases hx : r ∈ splitBar x.1
    · simp only [materialCF, List.foldl_cons, hx, if_true, List.foldl_nil, Option.some_or,
        Option.some.injEq] at h
      subst h
      exact ⟨x.1, by simp, hx⟩
    · simp only [materialCF, List.foldl_cons, hx, if_false, List.foldl_nil, Option.none_or] at h
      obtain ⟨p, hp, hr⟩ := ih h
      exact ⟨p, by simp [hp], hr⟩

theorem mapM_ok {α β : Type} (f : α → Except PyErr β) (g : α → β) (l : List α)
    (h : ∀ a ∈ l, f a = .ok (g a)) : l.mapM f = .ok (l.map g) := by
  induction l with
  | nil => rfl
  | cons a t ih =>
    rw [List.mapM_cons, h a (by simp), ih fun b hb => h b (by simp [hb])]
    rfl

theorem mapM_error {α β : Type} (f : α → Except PyErr β) (l : List α) {a : α} (ha : a ∈ l)
    {e : PyErr} (h : f a = .error e) : ∃ e', l.mapM f = .error e' := by
  induction l with
  | nil => simp at ha
  | cons b t ih =>
    rw [List.mapM_cons]
    cases hb : f b with
    | error e' => exact ⟨e', rfl⟩
    | ok y =>
      rcases List.mem_cons.1 ha with rfl | ha
      · rw [h] at hb; cases hb
      · obtain ⟨e', he⟩ := ih ha
        rw [he]
        exact ⟨e', rfl⟩

/-- The items of the grouping: conditions of the set under their own pattern. -/
theorem toPattern_item (C : Conditions) (order : List Cond) (p : Name) (c : Cond)
    (h : (p, c) ∈ C.toPattern order) : p = C.keyOf c ∧ c ∈ order := by
  have key : ∀ (order : List Cond) (d : Dict Name Cond) (Q : Name → Cond → Prop),
      (∀ q b, (q, b) ∈ d → Q q b) → (∀ b ∈ order, Q (C.keyOf b) b) →
      ∀ q b, (q, b) ∈ order.foldl (fun d c => d.set (C.keyOf c) c) d → Q q b := by
    intro order
    induction order with
    | nil => intro d Q h1 _; exact h1
    | cons a t ih =>
      intro d Q h1 h2
      refine ih _ Q ?_ fun b hb => h2 b (by simp [hb])
      intro q b hqb
      have hqb : (q, b) ∈ Dict.set d (C.keyOf a) a := hqb
      unfold Dict.set at hqb
      split_ifs at hqb
      · simp only [List.mem_map] at hqb
        obtain ⟨⟨q', b'⟩, hm, he⟩ := hqb
        split_ifs at he with hq
        · cases he
          exact h2 a (by simp)
        · cases he
          exact h1 _ _ hm
      · rcases List.mem_append.1 hqb with hm | hm
        · exact h1 _ _ hm
        · simp only [List.mem_singleton, Prod.mk.injEq] at hm
          obtain ⟨rfl, rfl⟩ := hm
          exact h2 _ (by simp)
  exact key order [] (fun q b => q = C.keyOf b ∧ b ∈ order) (by simp) (by simp) p c h

/-- Every condition of the set has its pattern among the keys. -/
theorem toPattern_key (C : Conditions) (order : List Cond) (c : Cond) (h : c ∈ order) :
    ∃ c', (C.keyOf c, c') ∈ C.toPattern order := by
  have key : ∀ (order : List Cond) (d : Dict Name Cond) (q : Name),
      (q ∈ d.keys ∨ ∃ b ∈ order, C.keyOf b = q) →
      q ∈ (order.foldl (fun d c => d.set (C.keyOf c) c) d).keys := by
    intro order
    induction order with
    | nil => intro d q h; simpa using h
    | cons a t ih =>
      intro d q h
      refine ih _ q ?_
      rcases h with h | ⟨b, hb, rfl⟩
      · left
        rw [Dict.keys_set]
        split_ifs
        · exact h
        · simp [h]
      · rcases List.mem_cons.1 hb with rfl | hb
        · left
          rw [Dict.keys_set]
          split_ifs with hh
          · exact hh
          · simp
        · exact .inr ⟨b, hb, rfl⟩
  have := key order [] (C.keyOf c) (.inr ⟨c, h, rfl⟩)
  simp only [Dict.keys, List.mem_map, Prod.exists, exists_and_right, exists_eq_right] at this
  exact this

/-- The conservative variables of an initial condition. -/
def initialVec (γ : ℝ) (fields : Cond → Option (Flow n)) (c : Cond) :
    Except PyErr (Fin (n + 2) → ℝ) := do stateVec γ (← initialFields fields c)

/-- The value that `MaterialCF` gives a region when the conditions of class `k` are grouped by
pattern, in any order: none without such a condition, otherwise that of one of its conditions. -/
theorem materialCF_grouping {α : Type} (k : CondClass) (dcs : Conditions) (hC : dcs.regions.Nodup)
    (hbar : ∀ r ∈ dcs.regions, '|' ∉ r) {order : List Cond} (ho : dcs.SetOrder k order)
    (w : Cond → α) {r : Name} {l : List Cond} (hl : dcs.data.get? r = some l) :
    ((∀ c ∈ l, c.isA k = false) →
      materialCF ((dcs.toPattern order).map fun kv => (kv.1, w kv.2)) r = none) ∧
    ((∃ c ∈ l, c.isA k = true) → ∃ c ∈ l, c.isA k = true ∧
      materialCF ((dcs.toPattern order).map fun kv => (kv.1, w kv.2)) r = some (w c)) := by
  have hsub : ∀ c, ∀ r ∈ dcs.regionsOf c, '|' ∉ r := by
    intro c r hr
    obtain ⟨l, hl, -⟩ := (regionsOf_mem dcs hC c r).1 hr
    exact hbar r (mem_regions_iff.2 ⟨l, hl⟩)
  have hsplit : ∀ c ∈ order, splitBar (dcs.keyOf c) = dcs.regionsOf c := fun c hc =>
    split_join (regionsOf_ne_nil dcs ((ho.2 c).1 hc)) (hsub c)
  have hin : ∀ {c}, c ∈ l → c.isA k = true → c ∈ order := by
    intro c hc hi
    rw [ho.2]
    simp only [Conditions.assignedOf, List.mem_filter, List.mem_flatMap, Prod.exists]
    exact ⟨⟨r, l, Dict.mem_of_get? hl, hc⟩, hi⟩
  have hini : ∀ c ∈ order, c.isA k = true := by
    intro c hc
    have := (ho.2 c).1 hc
    simp only [Conditions.assignedOf, List.mem_filter] at this
    exact this.2
  constructor
  · intro h
    rw [materialCF_none]
    intro kv hk hr
    obtain ⟨⟨p, c⟩, hp, rfl⟩ := List.mem_map.1 hk
    obtain ⟨rfl, hc⟩ := toPattern_item dcs order p c hp
    rw [hsplit c hc, regionsOf_mem dcs hC] at hr
    obtain ⟨l', hl', hcl⟩ := hr
    rw [hl] at hl'
    cases hl'
    have := h c hcl
    rw [hini c hc] at this
    cases this
  · rintro ⟨c, hc, hi⟩
    have hco := hin hc hi
    have hr : r ∈ splitBar (dcs.keyOf c) := by
      rw [hsplit c hco, regionsOf_mem dcs hC]
      exact ⟨l, hl, hc⟩
    obtain ⟨c', hc'⟩ := toPattern_key dcs order c hco
    cases hm : materialCF ((dcs.toPattern order).map fun kv => (kv.1, w kv.2)) r with
    | none =>
      exact absurd hr (materialCF_none.1 hm (dcs.keyOf c, w c')
        (List.mem_map.2 ⟨(dcs.keyOf c, c'), hc', rfl⟩))
    | some a =>
      obtain ⟨p, hp, hrp⟩ := materialCF_some hm
      obtain ⟨⟨q, b⟩, hq, he⟩ := List.mem_map.1 hp
      obtain ⟨hk, hb⟩ := toPattern_item dcs order q b hq
      simp only [Prod.mk.injEq] at he
      obtain ⟨rfl, rfl⟩ := he
      rw [hk, hsplit b hb, regionsOf_mem dcs hC] at hrp
      obtain ⟨l', hl', hbl⟩ := hrp
      rw [hl] at hl'
      cases hl'
      exact ⟨b, hbl, hini b hb, rfl⟩

/-- **C70** If the fields of all assigned initial conditions determine a state then, for every
iteration order of the set of conditions, a region without initial condition gets no value (0), and
every other region gets the state of one of the initial conditions assigned to it: of the only one
if there is only one. -/
theorem C70_states_partial {γ : ℝ} (dcs : Conditions) (hC : dcs.regions.Nodup)
    (hbar : ∀ r ∈ dcs.regions, '|' ∉ r) {order : List Cond} (ho : dcs.SetOrder .initial order)
    (fields : Cond → Option (Flow n)) (w : Cond → Fin (n + 2) → ℝ)
    (hw : ∀ c ∈ dcs.assignedOf .initial, initialVec γ fields c = .ok (w c)) :
    ∃ st, initialState γ dcs order fields = .ok st ∧
      ∀ r l, dcs.data.get? r = some l →
        ((∀ c ∈ l, c.isA .initial = false) → st r = none) ∧
        ((∃ c ∈ l, c.isA .initial = true) → ∃ c ∈ l, c.isA .initial = true ∧ st r = some (w c)) ∧
        (∀ c ∈ l, c.isA .initial = true → (∀ c' ∈ l, c'.isA .initial = true → c' = c) →
          st r = some (w c)) := by
  have hv : initialValues γ fields (dcs.toPattern order)
      = .ok ((dcs.toPattern order).map fun kv => (kv.1, w kv.2)) := by
    apply mapM_ok
    rintro ⟨p, c⟩ hk
    have := hw c ((ho.2 c).1 (toPattern_item dcs order p c hk).2)
    simp only [initialVec] at this
    cases hf : initialFields fields c with
    | error e => rw [hf] at this; cases this
    | ok F =>
      rw [hf] at this
      simp only [bind, Except.bind] at this ⊢
      rw [this]
  refine ⟨_, by rw [initialState, hv]; rfl, ?_⟩
  intro r l hl
  obtain ⟨h1, h2⟩ := materialCF_grouping .initial dcs hC hbar ho w hl
  refine ⟨h1, h2, fun c hc hi hu => ?_⟩
  obtain ⟨c', hc', hi', he⟩ := h2 ⟨c, hc, hi⟩
  rw [he, hu c' hc' hi']

/-- **C70** An initial condition whose fields were never set makes the initialisation raise, unless
another one is assigned to exactly the same regions. -/
theorem C70_unset {γ : ℝ} (dcs : Conditions) {order : List Cond}
    (fields : Cond → Option (Flow n)) {c : Cond} (hc : c ∈ order) (hf : fields c = none)
    (hk : ∀ c' ∈ order, dcs.keyOf c' = dcs.keyOf c → c' = c) :
    ∃ e, initialState γ dcs order fields = .error e := by
  obtain ⟨c', hc'⟩ := toPattern_key dcs order c hc
  obtain ⟨h1, h2⟩ := toPattern_item dcs order _ c' hc'
  obtain rfl := hk c' h2 h1.symm
  obtain ⟨e, he⟩ := mapM_error (fun kv : Name × Cond => do
      Except.ok (kv.1, ← stateVec γ (← initialFields fields kv.2))) (dcs.toPattern order) hc'
    (e := .valueError) (by simp [initialFields, hf, bind, Except.bind])
  exact ⟨e, by rw [initialState, initialValues, he]; rfl⟩

/-- **C70 fails where initial conditions overlap**: the region `b` has two of them; which one
counts depends on the iteration order of a set of objects hashed by address. -/
theorem C70_fails_overlap {γ : ℝ} (fields : Cond → Option (Flow n)) (w : Cond → Fin (n + 2) → ℝ)
    (hw : ∀ c, initialVec γ fields c = .ok (w c)) :
    let i : Cond := ⟨0, .initial⟩
    let j : Cond := ⟨1, .initial⟩
    let C : Conditions := { data := [(['a'], [i]), (['b'], [i, j])], options := [] }
    C.SetOrder .initial [i, j] ∧ C.SetOrder .initial [j, i] ∧
    (∃ st, initialState γ C [i, j] fields = .ok st ∧ st ['b'] = some (w j)) ∧
    (∃ st, initialState γ C [j, i] fields = .ok st ∧ st ['b'] = some (w i)) := by
  intro i j C
  have hv : ∀ d : Dict Name Cond,
      initialValues γ fields d = .ok (d.map fun kv => (kv.1, w kv.2)) := by
    intro d
    apply mapM_ok
    rintro ⟨p, c⟩ -
    have := hw c
    simp only [initialVec] at this
    cases hf : initialFields fields c with
    | error e => rw [hf] at this; cases this
    | ok F =>
      rw [hf] at this
      simp only [bind, Except.bind] at this ⊢
      rw [this]
  have o : ∀ c, c ∈ C.assignedOf .initial ↔ c = i ∨ c = j := by
    intro c
    have : C.assignedOf .initial = [i, i, j] := by decide
    rw [this]
    simp
  refine ⟨⟨by decide, fun c => by rw [o]; simp⟩, ⟨by decide, fun c => by rw [o]; simp [or_comm]⟩,
    ⟨_, by rw [initialState, hv]; rfl, ?_⟩, ⟨_, by rw [initialState, hv]; rfl, ?_⟩⟩
  · have : C.toPattern [i, j] = [(['a', '|', 'b'], i), (['b'], j)] := by decide
    rw [this]
    simp [materialCF, splitBar]
  · have : C.toPattern [j, i] = [(['b'], j), (['a', '|', 'b'], i)] := by decide
    rw [this]
    simp [materialCF, splitBar]

variable {V B : Type} [Fintype B]

/-- **C70** The facet unknown: if the initial state, seen from both sides, is a function of the
facet space (for instance a constant), then the facet unknown is this function; in general it is
the best approximation in the mean square over both sides. -/
theorem C70_facet (M : HdgMesh n V B) (hw : ∀ b, 0 < M.wB b) (W : Submodule ℝ (B → ℝ))
    (U u : B → ℝ) (h : IsFacetProjection M W U u) :
    (U ∈ W → u = U) ∧
    ∀ v ∈ W, ∑ b, M.wB b * (u b - U b) ^ 2 ≤ ∑ b, M.wB b * (v b - U b) ^ 2 := by
  obtain ⟨h1, h2⟩ := h
  have pyth : ∀ v ∈ W, ∑ b, M.wB b * (v b - U b) ^ 2
      = ∑ b, M.wB b * (u b - U b) ^ 2 + ∑ b, M.wB b * (v b - u b) ^ 2 := by
    intro v hv
    have hd : ∑ b, M.wB b * (u b * (v - u) b) = ∑ b, M.wB b * (U b * (v - u) b) :=
      h2 (v - u) (W.sub_mem hv h1)
    have e : ∑ b, M.wB b * (v b - U b) ^ 2
        = ∑ b, M.wB b * (u b - U b) ^ 2 + ∑ b, M.wB b * (v b - u b) ^ 2
          + 2 * (∑ b, M.wB b * (u b * (v - u) b) - ∑ b, M.wB b * (U b * (v - u) b)) := by
      rw [← Finset.sum_sub_distrib, Finset.mul_sum, ← Finset.sum_add_distrib,
        ← Finset.sum_add_distrib]
      exact Finset.sum_congr rfl fun b _ => by simp only [Pi.sub_apply]; ring
    rw [e, hd]
    ring
  have nonneg : ∀ x : B → ℝ, 0 ≤ ∑ b, M.wB b * x b ^ 2 := fun x =>
    Finset.sum_nonneg fun b _ => mul_nonneg (hw b).le (sq_nonneg _)
  constructor
  · intro hU
    have h3 := pyth U hU
    have h4 := nonneg fun b => U b - u b
    have h5 := nonneg fun b => u b - U b
    simp only [sub_self, ne_eq, OfNat.ofNat_ne_zero, not_false_eq_true, zero_pow, mul_zero,
      Finset.sum_const_zero] at h3
    have h6 : ∑ b, M.wB b * (u b - U b) ^ 2 = 0 := by linarith
    rw [Finset.sum_eq_zero_iff_of_nonneg fun b _ => mul_nonneg (hw b).le (sq_nonneg _)] at h6
    funext b
    have := (mul_eq_zero.1 (h6 b (Finset.mem_univ b))).resolve_left (hw b).ne'
    exact sub_eq_zero.1 (pow_eq_zero_iff (two_ne_zero)|>.1 this)
  · intro v hv
    rw [pyth v hv]
    linarith [nonneg fun b => v b - u b]

/-- C70, concrete instance: initial conditions assigned by name to two of three regions. -/
example : ∃ C, (do
      let C ← (Conditions.init [['a'], ['b'], ['c']] []).setItem (.str ['a', '|', 'b'])
        (.cond ⟨0, .initial⟩)
      C.setItem (.str ['c']) (.cond ⟨1, .spongeLayer⟩)) = .ok C ∧
    C.regions.Nodup ∧ C.SetOrder .initial [⟨0, .initial⟩] ∧
    C.data.get? ['b'] = some [⟨0, .initial⟩] := by
  refine ⟨_, rfl, by decide, ⟨by decide, fun c => ?_⟩, by decide⟩
  simp [Conditions.assignedOf, Conditions.append, Conditions.init, fromKeys, getRegionsFromPattern,
    Pattern.names, splitBar, Conditions.regions, Dict.keys, Cond.isA, CondClass.bases]

end Dream
