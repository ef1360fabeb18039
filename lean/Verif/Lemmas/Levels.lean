import Verif.Model.Time
import Verif.Spec.Time

namespace Dream

theorem foldlM_ok_nil {α β ε} (f : β → α → Except ε β) (b : β) :
    List.foldlM f b [] = .ok b := rfl

theorem levels_lookup_cons_ne {V} (l : Levels V) (a b : String) (x : V) (h : a ≠ b) :
    Levels.get? ((a, x) :: l) b = Levels.get? l b := by
  unfold Levels.get?
  rw [List.lookup_cons]
  have : (b == a) = false := by simpa using fun e => h e.symm
  rw [this]

theorem levels_lookup_cons_self {V} (l : Levels V) (a : String) (x : V) :
    Levels.get? ((a, x) :: l) a = some x := by
  unfold Levels.get?; simp [List.lookup_cons]

theorem levels_lookup_append {V} (d l : Levels V) (b : String) (h : ∀ kv ∈ d, kv.1 ≠ b) :
    Levels.get? (d ++ l) b = Levels.get? l b := by
  induction d with
  | nil => rfl
  | cons kv d ih =>
    rw [List.cons_append, levels_lookup_cons_ne _ _ _ _ (h kv (by simp))]
    exact ih fun kv' h' => h kv' (by simp [h'])

theorem levels_set_append {V} (d l : Levels V) (b : String) (v : V) :
    Levels.set (d ++ l) b v = Levels.set d b v ++ Levels.set l b v := by
  simp [Levels.set]

theorem levels_set_of_not_mem {V} (d : Levels V) (b : String) (v : V) (h : ∀ kv ∈ d, kv.1 ≠ b) :
    Levels.set d b v = d := by
  unfold Levels.set
  conv_rhs => rw [← List.map_id d]
  apply List.map_congr_left
  intro kv hkv
  simp [h kv hkv]

theorem zip_keys_ne {V} (names : List String) (vals : List V) (b : String) (h : b ∉ names) :
    ∀ kv ∈ names.zip vals, kv.1 ≠ b := by
  rintro ⟨k, v⟩ hkv rfl
  exact h (List.of_mem_zip hkv).1

/-- The loop of `update_gridfunctions` shifts the values by one. -/
theorem updateLevels_aux {V} (names : List String) (vals : List V) (d : Levels V)
    (hlen : names.length = vals.length) (hnd : names.Nodup) (hd : ∀ kv ∈ d, kv.1 ∉ names)
    (hne : vals ≠ []) :
    (names.dropLast.zip names.tail).foldlM (init := d ++ names.zip vals) (fun l on =>
      match l.get? on.2 with
      | none => (.error .keyError : Except PyErr (Levels V))
      | some v => .ok (l.set on.1 v))
      = .ok (d ++ names.zip (vals.tail ++ [vals.getLast hne])) := by
  induction names generalizing vals d with
  | nil => simp at hlen; exact absurd (List.length_eq_zero_iff.1 hlen.symm) hne
  | cons a names ih =>
    match vals, hne with
    | [x], _ =>
      have : names = [] := by simpa using hlen
      subst this
      rfl
    | x :: y :: vals, _ =>
      match names, ih, hlen, hnd, hd with
      | b :: names, ih, hlen, hnd, hd =>
        simp only [List.dropLast_cons_cons, List.tail_cons, List.zip_cons_cons, List.foldlM_cons]
        have hab : a ≠ b := fun e => by simp [e] at hnd
        have h1 : Levels.get? (d ++ (a, x) :: (b, y) :: names.zip vals) b = some y := by
          rw [levels_lookup_append _ _ _ (fun kv hkv e => hd kv hkv (by simp [e])),
            levels_lookup_cons_ne _ _ _ _ hab, levels_lookup_cons_self]
        rw [h1]
        have ha : a ∉ b :: names := (List.nodup_cons.1 hnd).1
        have h2 : Levels.set (d ++ (a, x) :: (b, y) :: names.zip vals) a y
            = (d ++ [(a, y)]) ++ (b :: names).zip (y :: vals) := by
          rw [levels_set_append, levels_set_of_not_mem d a y (fun kv hkv e => hd kv hkv (by simp [e]))]
          have : Levels.set ((a, x) :: (b, y) :: names.zip vals) a y
              = (a, y) :: Levels.set ((b :: names).zip (y :: vals)) a y := by
            simp [Levels.set]
          rw [this, levels_set_of_not_mem _ a y (zip_keys_ne _ _ _ ha)]
          simp
        show List.foldlM _ (Levels.set (d ++ (a, x) :: (b, y) :: names.zip vals) a y) _ = _
        rw [h2]
        have := ih (y :: vals) (d ++ [(a, y)]) (by simpa using hlen) (List.nodup_cons.1 hnd).2
          (by
            intro kv hkv
            rcases List.mem_append.1 hkv with h | h
            · intro h'; exact hd kv h (List.mem_cons_of_mem _ h')
            · simp at h; subst h; exact ha) (by simp)
        simp only [List.tail_cons] at this
        refine this.trans ?_
        simp

theorem updateLevels_shift {V} (names : List String) (vals : List V)
    (hlen : names.length = vals.length) (hnd : names.Nodup) (hne : vals ≠ []) :
    updateLevels names (names.zip vals)
      = .ok (names.zip (vals.tail ++ [vals.getLast hne])) := by
  exact updateLevels_aux names vals [] hlen hnd (by simp) hne

theorem levels_set_last {V} (pre : List String) (b : String) (vals : List V) (c u : V)
    (hlen : pre.length = vals.length) (hb : b ∉ pre) :
    Levels.set ((pre ++ [b]).zip (vals ++ [c])) b u = (pre ++ [b]).zip (vals ++ [u]) := by
  rw [List.zip_append hlen, List.zip_append hlen, levels_set_append,
    levels_set_of_not_mem _ _ _ (zip_keys_ne _ _ _ hb)]
  simp [Levels.set]

/-- Contents of the levels after the run `us` from `u0`, oldest level first. -/
def stateVals {V} (m : ℕ) (u0 : V) (us : List V) : List V :=
  (List.range m).reverse.map (Spec.back u0 us) ++ [Spec.back u0 us 0]

theorem back_concat_zero {V} (u0 : V) (us : List V) (u : V) : Spec.back u0 (us ++ [u]) 0 = u := by
  simp [Spec.back]

theorem back_concat_succ {V} (u0 : V) (us : List V) (u : V) (j : ℕ) :
    Spec.back u0 (us ++ [u]) (j + 1) = Spec.back u0 us j := by
  simp [Spec.back]

theorem timeStep_stateVals {V} (pre : List String) (u0 : V) (us : List V) (u : V)
    (hnd : (pre ++ ["n+1"]).Nodup) (hpre : pre ≠ []) :
    timeStep (pre ++ ["n+1"]) ((pre ++ ["n+1"]).zip (stateVals pre.length u0 us)) u
      = .ok ((pre ++ ["n+1"]).zip (stateVals pre.length u0 (us ++ [u]))) := by
  have hb : "n+1" ∉ pre := by
    intro h
    have := List.nodup_append.1 hnd
    exact this.2.2 _ h _ (by simp) rfl
  unfold timeStep
  rw [stateVals, levels_set_last pre "n+1" _ _ u (by simp) hb,
    updateLevels_shift _ _ (by simp) hnd (by simp)]
  congr 2
  obtain ⟨m, hm⟩ : ∃ m, pre.length = m + 1 :=
    ⟨pre.length - 1, by have := List.length_pos_iff.2 hpre; omega⟩
  rw [List.getLast_append_singleton, stateVals, hm, back_concat_zero]
  rw [List.range_succ, List.reverse_append]
  simp only [List.reverse_cons, List.reverse_nil, List.nil_append, List.cons_append,
    List.map_cons, List.tail_cons]
  have e : List.map (Spec.back u0 (us ++ [u])) (m :: (List.range m).reverse)
      = List.map (Spec.back u0 us) (List.range m).reverse ++ [u] := by
    have : m :: (List.range m).reverse = (List.range (m + 1)).reverse := by
      rw [List.range_succ, List.reverse_append]; rfl
    rw [this, List.range_succ_eq_map, List.reverse_cons, List.map_append, List.map_singleton,
      back_concat_zero, ← List.map_reverse, List.map_map]
    congr 1
    apply List.map_congr_left
    intro j _
    exact back_concat_succ u0 us u j
  rw [← List.cons_append, ← List.map_cons, e]

theorem setInitialConditions_eq {V} (pre : List String) (vals : List V) (c : V)
    (hlen : pre.length = vals.length) (hnd : (pre ++ ["n+1"]).Nodup) :
    setInitialConditions ((pre ++ ["n+1"]).zip (vals ++ [c]))
      = .ok ((pre ++ ["n+1"]).zip (stateVals pre.length c [])) := by
  have hb : "n+1" ∉ pre := by
    intro h
    exact (List.nodup_append.1 hnd).2.2 _ h _ (by simp) rfl
  have hlk : Levels.get? ((pre ++ ["n+1"]).zip (vals ++ [c])) "n+1" = some c := by
    rw [List.zip_append hlen, levels_lookup_append _ _ _ (zip_keys_ne _ _ _ hb)]
    exact levels_lookup_cons_self [] _ _
  unfold setInitialConditions
  rw [hlk]
  rw [List.zip_append hlen, stateVals, List.zip_append (by simp)]
  have hz : (pre.zip vals).length = pre.length := by simp [hlen]
  have e1 : (pre.zip vals ++ ["n+1"].zip [c]).dropLast = pre.zip vals := by simp
  have e2 : List.drop ((pre.zip vals ++ ["n+1"].zip [c]).length - 1)
      (pre.zip vals ++ ["n+1"].zip [c]) = [("n+1", c)] := by simp [List.drop_append]
  rw [e1, e2]
  simp only
  have e3 : Spec.back c ([] : List V) = fun _ => c := by
    funext j; simp [Spec.back]
  rw [e3]
  show Except.ok _ = Except.ok _
  congr 2
  have : List.map (fun _ => c) (List.range pre.length).reverse = vals.map fun _ => c := by
    apply List.ext_getElem <;> simp [hlen]
  rw [this]
  clear hlk hz e1 e2 this hnd hb
  induction pre generalizing vals with
  | nil => simp
  | cons a pre ih =>
    cases vals with
    | nil => simp at hlen
    | cons v vals =>
      simp only [List.length_cons, Nat.add_right_cancel_iff] at hlen
      simp only [List.zip_cons_cons, List.map_cons, ih vals hlen]

theorem levels_get_zip_range {V} (ks : List String) (hks : ks.Nodup) (f : ℕ → V) (rest : Levels V)
    (i : ℕ) (k : String) (hi : ks[i]? = some k) :
    Levels.get? (ks.zip ((List.range ks.length).map f) ++ rest) k = some (f i) := by
  induction ks generalizing f i with
  | nil => simp at hi
  | cons a ks ih =>
    rw [List.length_cons, List.range_succ_eq_map, List.map_cons, List.map_map,
      List.zip_cons_cons, List.cons_append]
    cases i with
    | zero =>
      simp at hi
      subst hi
      exact levels_lookup_cons_self _ _ _
    | succ i =>
      rw [List.getElem?_cons_succ] at hi
      rw [levels_lookup_cons_ne]
      · exact ih (List.nodup_cons.1 hks).2 (f ∘ Nat.succ) i hi
      · rintro rfl
        exact (List.nodup_cons.1 hks).1 (List.mem_of_getElem? hi)

theorem except_mapM_ok {α β ε} (f : α → Except ε β) (g : α → β) (l : List α)
    (h : ∀ a ∈ l, f a = .ok (g a)) : l.mapM f = .ok (l.map g) := by
  induction l with
  | nil => rfl
  | cons a l ih =>
    rw [List.mapM_cons, h a (by simp), ih fun b hb => h b (by simp [hb])]
    rfl

end Dream
