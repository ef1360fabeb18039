import Verif.Model.Mapping
import Verif.Lemmas.Dict
import Verif.Lemmas.Config
import Verif.Props.Streams

/-!
# C74: a configuration is a mapping of its options
-/

namespace Dream.Mapping

variable {V : Type}

/-- The operation names the option `n` (or resets all options). -/
def Op.touches (n : Name) : Op V → Prop
  | .set m _ => m = n
  | .del m => m = n
  | .clear => True
  | .pop m => m = n
  | .setdefault m _ => m = n
  | .update m _ => m = n

theorem keys_erase {κ α : Type} [DecidableEq κ] (d : Dict κ α) (k : κ) :
    (d.erase k).keys = d.keys.filter (fun a => a ≠ k) := by
  simp only [Dict.erase, Dict.keys]
  rw [List.filter_map]
  rfl

theorem setItem_data {c : Cls V} {x y : Inst V} {n : Name} {v : V} (h : setItem c x n v = .ok y) :
    (¬c.declared n ∧ y.data = x.data ∧ y.attrs = x.attrs.set n v) ∨
    (c.declared n ∧ y.attrs = x.attrs ∧
      ∃ w, c.fset n x.data v = .ok w ∧ y.data = x.data.set n w) := by
  unfold setItem at h
  by_cases hd : c.declared n
  · rw [if_pos hd] at h
    cases hf : c.fset n x.data v with
    | error e => rw [hf] at h; cases h
    | ok w =>
      rw [hf] at h
      simp only [bind, Except.bind] at h
      cases hk : c.kind n with
      | plain =>
        rw [hk] at h
        cases h
        exact .inr ⟨hd, rfl, w, rfl, rfl⟩
      | param =>
        rw [hk] at h
        by_cases hh : x.data.has n = true
        · simp only [hh, if_true] at h
          cases h
          exact .inr ⟨hd, rfl, w, rfl, rfl⟩
        · simp [hh] at h
  · rw [if_neg hd] at h
    cases h
    exact .inl ⟨hd, rfl, rfl⟩

theorem delItem_data {c : Cls V} {x y : Inst V} {n : Name} (h : delItem c x n = .ok y) :
    (¬c.declared n ∧ y.data = x.data ∧ n ∈ x.attrs.keys ∧ y.attrs = x.attrs.erase n) ∨
    (c.declared n ∧ y.attrs = x.attrs ∧ n ∈ x.data.keys ∧ y.data = x.data.erase n) := by
  unfold delItem delKey at h
  by_cases hd : c.declared n
  · rw [if_pos hd] at h
    by_cases hh : x.data.has n = true
    · simp only [hh, if_true, bind, Except.bind] at h
      cases h
      exact .inr ⟨hd, rfl, Dict.has_iff.1 hh, rfl⟩
    · simp [hh, bind, Except.bind] at h
  · rw [if_neg hd] at h
    by_cases hh : x.attrs.has n = true
    · simp only [hh, if_true, bind, Except.bind] at h
      cases h
      exact .inl ⟨hd, rfl, Dict.has_iff.1 hh, rfl⟩
    · simp [hh, bind, Except.bind] at h

theorem step_pop {c : Cls V} {x y : Inst V} {n : Name} (h : step c x (.pop n) = .ok y) :
    delItem c x n = .ok y := by
  simp only [step, pop] at h
  cases h1 : getItem c x n with
  | error e => rw [h1] at h; cases h
  | ok v =>
    cases h2 : delItem c x n with
    | error e => rw [h1, h2] at h; cases h
    | ok z =>
      rw [h1, h2] at h
      exact congrArg _ (Except.ok.inj h)

theorem step_setdefault {c : Cls V} {x y : Inst V} {n : Name} {v : V}
    (h : step c x (.setdefault n v) = .ok y) : y = x ∨ setItem c x n v = .ok y := by
  simp only [step, setdefault] at h
  cases h1 : getItem c x n with
  | ok w => rw [h1] at h; exact .inl (Except.ok.inj h).symm
  | error e =>
    rw [h1] at h
    cases e <;> first
      | cases h; done
      | (cases h2 : setItem c x n v with
         | error e => rw [h2] at h; cases h
         | ok z => rw [h2] at h; exact .inr (congrArg _ (Except.ok.inj h)))

/-- Every operation is nothing, an assignment, a deletion or a reset. -/
theorem step_cases {c : Cls V} {x y : Inst V} {o : Op V} (h : step c x o = .ok y) :
    y = x ∨ (∃ n v, o.touches n ∧ setItem c x n v = .ok y) ∨
    (∃ n, o.touches n ∧ delItem c x n = .ok y) ∨ (o = .clear ∧ clear c x = .ok y) := by
  cases o with
  | set n v => exact .inr (.inl ⟨n, v, rfl, h⟩)
  | del n => exact .inr (.inr (.inl ⟨n, rfl, h⟩))
  | clear => exact .inr (.inr (.inr ⟨rfl, h⟩))
  | pop n => exact .inr (.inr (.inl ⟨n, rfl, step_pop h⟩))
  | setdefault n v =>
    rcases step_setdefault h with h | h
    · exact .inl h
    · exact .inr (.inl ⟨n, v, rfl, h⟩)
  | update n v =>
    simp only [step, update1] at h
    split_ifs at h
    · exact .inr (.inl ⟨n, v, rfl, h⟩)
    · exact .inl (Except.ok.inj h).symm

theorem touches_unique {n m : Name} {o : Op V} (h : o.touches n) (hm : ¬o.touches m) : m ≠ n := by
  cases o <;> simp_all [Op.touches] <;> exact fun e => hm e.symm

/-- **C74** An operation on one option leaves every other option and attribute as it is. -/
theorem C74_others {c : Cls V} {x y : Inst V} {o : Op V} (h : step c x o = .ok y) {m : Name}
    (hm : ¬o.touches m) :
    y.data.get? m = x.data.get? m ∧ y.attrs.get? m = x.attrs.get? m := by
  rcases step_cases h with rfl | ⟨n, v, ht, hs⟩ | ⟨n, ht, hs⟩ | ⟨rfl, -⟩
  · exact ⟨rfl, rfl⟩
  · have hne := touches_unique ht hm
    rcases setItem_data hs with ⟨-, h1, h2⟩ | ⟨-, h1, w, -, h2⟩
    · rw [h1, h2, Dict.get?_set, if_neg hne]; exact ⟨rfl, rfl⟩
    · rw [h1, h2, Dict.get?_set, if_neg hne]; exact ⟨rfl, rfl⟩
  · have hne := touches_unique ht hm
    rcases delItem_data hs with ⟨-, h1, -, h2⟩ | ⟨-, h1, -, h2⟩
    · rw [h1, h2, Dict.get?_erase_ne _ hne]; exact ⟨rfl, rfl⟩
    · rw [h1, h2, Dict.get?_erase_ne _ hne]; exact ⟨rfl, rfl⟩
  · exact absurd trivial hm

theorem run_others (c : Cls V) (os : List (Op V)) (m : Name) : ∀ (x : Inst V),
    (∀ o ∈ os, ¬o.touches m) → (run c x os).data.get? m = x.data.get? m ∧
      (run c x os).attrs.get? m = x.attrs.get? m := by
  induction os with
  | nil => exact fun x _ => ⟨rfl, rfl⟩
  | cons o os ih =>
    intro x h
    unfold run
    cases hs : step c x o with
    | error e => exact ih x fun o' ho => h o' (List.mem_cons_of_mem _ ho)
    | ok y =>
      obtain ⟨h1, h2⟩ := ih y fun o' ho => h o' (List.mem_cons_of_mem _ ho)
      obtain ⟨h3, h4⟩ := C74_others hs (h o (List.mem_cons_self ..))
      exact ⟨h1.trans h3, h2.trans h4⟩

/-- **C74** Reading an option gives the value last accepted by its setter: for every session, if
an assignment was accepted and later operations (succeeding or failing) name other options only,
then the option is a key, and reading it gives the setter's value, or the error of its getter
check. -/
theorem C74_read (c : Cls V) {x y : Inst V} {n : Name} {v : V} (hd : c.declared n)
    (h : setItem c x n v = .ok y) (os : List (Op V)) (ho : ∀ o ∈ os, ¬o.touches n) :
    ∃ w, c.fset n x.data v = .ok w ∧ contains (run c y os) n = true ∧
      getItem c (run c y os) n = (c.fget n (run c y os).data).map fun _ => w := by
  rcases setItem_data h with ⟨h1, -⟩ | ⟨-, -, w, hw, h2⟩
  · exact absurd hd h1
  refine ⟨w, hw, ?_⟩
  have h3 : (run c y os).data.get? n = some w := by
    rw [(run_others c os n y ho).1, h2, Dict.get?_set, if_pos rfl]
  refine ⟨Dict.has_iff.2 ?_, ?_⟩
  · by_contra hc
    rw [Dict.get?_eq_none.2 hc] at h3
    cases h3
  · unfold getItem
    rw [if_pos hd, h3]
    cases c.fget n (run c y os).data <;> rfl

/-- **C74** A deleted (or popped) option stays deleted: as long as no later operation assigns it or
resets the configuration it is not a key, reading it raises `KeyError`, `get` returns the default
given by the user, and `update` ignores it silently. (All this unless its getter check raises.) -/
theorem C74_deleted (c : Cls V) {x y : Inst V} {n : Name} (hd : c.declared n)
    (h : step c x (.del n) = .ok y ∨ step c x (.pop n) = .ok y)
    (os : List (Op V)) (ho : ∀ o ∈ os, ¬o.touches n)
    (hg : c.fget n (run c y os).data = .ok ()) :
    n ∈ keys x ∧ contains (run c y os) n = false ∧
      getItem c (run c y os) n = .error .keyError ∧
      (∀ d, get c (run c y os) n d = .ok d) ∧
      ∀ v, update1 c (run c y os) n v = .ok (run c y os) := by
  have h : delItem c x n = .ok y := h.elim id step_pop
  rcases delItem_data h with ⟨h1, -⟩ | ⟨-, -, h1, h2⟩
  · exact absurd hd h1
  have h3 : (run c y os).data.get? n = none := by
    rw [(run_others c os n y ho).1, h2, Dict.get?_eq_none, keys_erase]
    simp
  have h4 : contains (run c y os) n = false := by
    rw [contains, Bool.eq_false_iff]
    exact fun hh => Dict.get?_eq_none.1 h3 (Dict.has_iff.1 hh)
  have h5 : getItem c (run c y os) n = .error .keyError := by
    unfold getItem
    rw [if_pos hd, h3, hg]
    rfl
  exact ⟨h1, h4, h5, fun d => by rw [get, h5], fun v => by simp [update1, h4]⟩

/-- **C74** A deleted `parameter` option cannot be assigned any more: every value its setter
accepts raises `KeyError`. A plain option can be assigned again and is then the last key. -/
theorem C74_reassign (c : Cls V) {x : Inst V} {n : Name} (hd : c.declared n)
    (hn : n ∉ keys x) {v w : V} (hw : c.fset n x.data v = .ok w) :
    (c.kind n = .param → setItem c x n v = .error .keyError) ∧
    (c.kind n = .plain → ∃ y, setItem c x n v = .ok y ∧ keys y = keys x ++ [n] ∧
      y.data.get? n = some w) := by
  have hh : x.data.has n = false := by
    rw [Bool.eq_false_iff]
    exact fun hh => hn (Dict.has_iff.1 hh)
  refine ⟨fun hk => ?_, fun hk => ⟨{ x with data := x.data.set n w }, ?_, ?_, ?_⟩⟩
  · simp [setItem, hd, hw, hk, hh, bind, Except.bind]
  · simp [setItem, hd, hw, hk, bind, Except.bind]
  · have hn : n ∉ x.data.keys := hn
    rw [keys, Dict.keys_set, if_neg hn]
    rfl
  · rw [Dict.get?_set, if_pos rfl]

/-- **C74** Assigning an existing option keeps the order of the keys. -/
theorem C74_order (c : Cls V) {x y : Inst V} {n : Name} {v : V} (hn : n ∈ keys x)
    (h : setItem c x n v = .ok y) : keys y = keys x := by
  rcases setItem_data h with ⟨-, h1, -⟩ | ⟨-, -, w, -, h1⟩
  · rw [keys, h1]; rfl
  · have hn : n ∈ x.data.keys := hn
    rw [keys, h1, Dict.keys_set, if_pos hn]; rfl

/-- The class accepts its own defaults, in the order in which they are set. -/
def Cls.Sound (c : Cls V) : Prop := (c.opts.map Prod.fst).Nodup ∧ ∀ d o, o ∈ c.opts → ∃ w, c.fset o.1 d o.2 = .ok w

theorem fold_reset (c : Cls V) (l : List (Name × V)) (hl : ∀ d o, o ∈ l → ∃ w, c.fset o.1 d o.2 = .ok w)
    (hn : (l.map Prod.fst).Nodup) : ∀ d : Dict Name V, (∀ o ∈ l, o.1 ∉ d.keys) →
    ∃ d', l.foldlM (resetOption c) d = .ok d' ∧ d'.keys = d.keys ++ l.map Prod.fst ∧
      (∀ m ∈ d.keys, d'.get? m = d.get? m) ∧
      ∀ o ∈ l, ∃ w e, c.fset o.1 e o.2 = .ok w ∧ d'.get? o.1 = some w := by
  induction l with
  | nil =>
    intro d _
    exact ⟨d, rfl, by simp, fun _ _ => rfl, by simp⟩
  | cons o l ih =>
    intro d hd
    obtain ⟨w, hw⟩ := hl d o (List.mem_cons_self ..)
    have hk : (d.set o.1 w).keys = d.keys ++ [o.1] := by
      rw [Dict.keys_set, if_neg (hd o (List.mem_cons_self ..))]
    rw [List.map_cons, List.nodup_cons] at hn
    obtain ⟨d', h1, h2, h3, h4⟩ := ih (fun d o' ho => hl d o' (List.mem_cons_of_mem _ ho)) hn.2
      (d.set o.1 w) (by
        intro o' ho
        rw [hk, List.mem_append, not_or]
        refine ⟨hd o' (List.mem_cons_of_mem _ ho), ?_⟩
        rw [List.mem_singleton]
        intro e
        exact hn.1 (e ▸ List.mem_map.2 ⟨o', ho, rfl⟩))
    refine ⟨d', ?_, ?_, ?_, ?_⟩
    · simp only [List.foldlM_cons, resetOption, hw, bind, Except.bind]
      exact h1
    · rw [h2, hk, List.map_cons, List.append_assoc]; rfl
    · intro m hm
      rw [h3 m (by rw [hk]; exact List.mem_append_left _ hm), Dict.get?_set, if_neg]
      rintro rfl
      exact hd o (List.mem_cons_self ..) hm
    · intro o' ho
      rcases List.mem_cons.1 ho with rfl | ho
      · refine ⟨w, d, hw, ?_⟩
        rw [h3 o'.1 (by rw [hk]; simp), Dict.get?_set, if_pos rfl]
      · exact h4 o' ho

/-- **C74** `clear` restores the defaults, whatever happened before: afterwards the keys are the
options of the class in order, every option holds its default as accepted by the setter, and the
options are exactly those of a new object. Attributes that are not options survive. -/
theorem C74_clear (c : Cls V) (hc : c.Sound) (x : Inst V) :
    ∃ y z, clear c x = .ok y ∧ new c = .ok z ∧ y.data = z.data ∧ y.attrs = x.attrs ∧
      keys y = c.opts.map Prod.fst ∧
      ∀ o ∈ c.opts, ∃ w e, c.fset o.1 e o.2 = .ok w ∧ y.data.get? o.1 = some w := by
  obtain ⟨d', h1, h2, -, h4⟩ := fold_reset c c.opts hc.2 hc.1 [] (by simp [Dict.keys])
  refine ⟨{ x with data := d' }, ⟨d', []⟩, ?_, ?_, rfl, rfl, ?_, h4⟩
  · simp only [clear, h1, bind, Except.bind]
  · simp only [new, clear, h1, bind, Except.bind]
  · rw [keys, h2]; rfl

/-- **C74** In every session the keys are distinct names of options. -/
theorem C74_keys (c : Cls V) (hc : c.Sound) (os : List (Op V)) : ∀ (x : Inst V),
    (keys x).Nodup → (∀ n ∈ keys x, c.declared n) →
    (keys (run c x os)).Nodup ∧ ∀ n ∈ keys (run c x os), c.declared n := by
  induction os with
  | nil => exact fun x h1 h2 => ⟨h1, h2⟩
  | cons o os ih =>
    intro x h1 h2
    unfold run
    cases hs : step c x o with
    | error e => exact ih x h1 h2
    | ok y =>
      suffices h : (keys y).Nodup ∧ ∀ n ∈ keys y, c.declared n from ih y h.1 h.2
      rcases step_cases hs with rfl | ⟨n, v, -, hs⟩ | ⟨n, -, hs⟩ | ⟨-, hs⟩
      · exact ⟨h1, h2⟩
      · rcases setItem_data hs with ⟨-, e1, -⟩ | ⟨hd, -, w, -, e1⟩
        · rw [keys, e1]; exact ⟨h1, h2⟩
        · refine ⟨?_, ?_⟩
          · rw [keys, e1]; exact Dict.nodup_set h1 n w
          · intro m hm
            rw [keys, e1, Dict.keys_set] at hm
            split_ifs at hm
            · exact h2 m hm
            · rcases List.mem_append.1 hm with hm | hm
              · exact h2 m hm
              · rw [List.mem_singleton] at hm; exact hm ▸ hd
      · rcases delItem_data hs with ⟨-, e1, -⟩ | ⟨hd, -, -, e1⟩
        · rw [keys, e1]; exact ⟨h1, h2⟩
        · rw [keys, e1, keys_erase]
          exact ⟨h1.filter _, fun m hm => h2 m (List.mem_filter.1 hm).1⟩
      · obtain ⟨y', z, e1, -, -, -, e2, -⟩ := C74_clear c hc x
        rw [e1] at hs
        rw [← Except.ok.inj hs, e2]
        exact ⟨hc.1, fun n hn => hn⟩

/-- **C74** `pop` and `popitem` return what reading returns and remove this key only. -/
theorem C74_pop_partial (c : Cls V) {x y : Inst V} {v : V} :
    (∀ n, c.declared n → pop c x n = .ok (v, y) →
      getItem c x n = .ok v ∧ keys y = (keys x).filter (· ≠ n) ∧ y.attrs = x.attrs) ∧
    (∀ n, c.declared n → (keys x).Nodup → popitem c x = .ok ((n, v), y) →
      getItem c x n = .ok v ∧ keys x = n :: keys y ∧ y.attrs = x.attrs) := by
  constructor
  · intro n hd h
    unfold pop at h
    cases h1 : getItem c x n with
    | error e => rw [h1] at h; cases h
    | ok w =>
      cases h2 : delItem c x n with
      | error e => rw [h1, h2] at h; cases h
      | ok z =>
        rw [h1, h2] at h
        cases h
        rcases delItem_data h2 with ⟨h3, -⟩ | ⟨-, h3, -, h4⟩
        · exact absurd hd h3
        · exact ⟨rfl, by rw [keys, h4, keys_erase]; rfl, h3⟩
  · intro n hd hn h
    unfold popitem at h
    cases hk : keys x with
    | nil => rw [hk] at h; cases h
    | cons m ms =>
      rw [hk] at h
      cases h1 : getItem c x m with
      | error e => simp only [h1] at h; cases h
      | ok w =>
        cases h2 : delItem c x m with
        | error e => simp only [h1, h2] at h; cases h
        | ok z =>
          simp only [h1, h2] at h
          cases h
          rcases delItem_data h2 with ⟨h3, -⟩ | ⟨-, h3, -, h4⟩
          · exact absurd hd h3
          · refine ⟨h1, ?_, h3⟩
            rw [hk, List.nodup_cons] at hn
            have e : keys y = (keys x).filter (fun a => a ≠ n) := by
              rw [keys, h4, keys_erase]; rfl
            rw [e, hk, List.filter_cons_of_neg (by simp)]
            congr 1
            exact (List.filter_eq_self.2 fun a ha => by
              simp only [ne_eq, decide_not, Bool.not_eq_eq_eq_not, Bool.not_true,
                decide_eq_false_iff_not]
              rintro rfl
              exact hn.1 ha).symm

/-- **C74** A misspelt option is accepted silently: the assignment succeeds for every value, the
value can be read back, but the name does not become a key and no option changes. -/
theorem C74_undeclared (c : Cls V) (x : Inst V) {n : Name} (hd : ¬c.declared n) (v : V) :
    ∃ y, setItem c x n v = .ok y ∧ y.data = x.data ∧ keys y = keys x ∧ getItem c y n = .ok v := by
  refine ⟨{ x with attrs := x.attrs.set n v }, by simp [setItem, hd], rfl, rfl, ?_⟩
  simp [getItem, hd, Dict.get?_set]

/-- **C74** `get`, `pop` and `setdefault` do not behave like those of a dictionary for unknown
names: they raise `AttributeError` instead of using the default. -/
theorem C74_fails_get (c : Cls V) (x : Inst V) {n : Name} (hd : ¬c.declared n)
    (hx : x.attrs.get? n = none) (ha : c.attr n = none) (d : V) :
    get c x n d = .error .attributeError ∧
      pop c x n = .error .attributeError ∧ setdefault c x n d = .error .attributeError := by
  have h : getItem c x n = .error .attributeError := by simp [getItem, hd, hx, ha]
  refine ⟨by rw [get, h], ?_, by rw [setdefault, h]⟩
  rw [pop, h]
  rfl

/-- C74, concrete instance: an interval with a checked step. -/
def demoCls : Cls ℕ where
  opts := [(['a'], 0), (['d', 't'], 5)]
  kind := fun n => if n = ['d', 't'] then .param else .plain
  fset := fun n _ v => if n = ['d', 't'] ∧ v = 0 then .error .valueError else .ok v
  fget := fun _ _ => .ok ()
  attr := fun _ => none

example : demoCls.Sound := by
  refine ⟨by decide, fun d o ho => ?_⟩
  simp only [demoCls, List.mem_cons, List.not_mem_nil, or_false] at ho
  rcases ho with rfl | rfl
  · exact ⟨0, by simp [demoCls]⟩
  · exact ⟨5, by simp [demoCls]⟩

example : ∃ x y z, new demoCls = .ok x ∧ setItem demoCls x ['a'] 7 = .ok y ∧
    step demoCls y (.del ['d', 't']) = .ok z ∧ keys z = [['a']] ∧
    getItem demoCls (run demoCls z [.set ['b'] 3, .set ['d', 't'] 1, .clear]) ['a'] = .ok 0 ∧
    getItem demoCls (run demoCls z [.set ['b'] 3, .set ['d', 't'] 1]) ['a'] = .ok 7 :=
  ⟨⟨[(['a'], 0), (['d', 't'], 5)], []⟩, ⟨[(['a'], 7), (['d', 't'], 5)], []⟩, ⟨[(['a'], 7)], []⟩,
    rfl, rfl, rfl, rfl, rfl, rfl⟩

end Dream.Mapping
