import Verif.Model.FieldDict
import Verif.Props.Streams

/-!
# C15: field dictionaries; C47: output fields
-/

namespace Dream

variable {V : Type}

/-- The canonical name of a key. -/
def Spec.canon (sy : Symbols) (key : String) : String := (sy.get? key).getD key

/-- What a dictionary should hold under a canonical name after a history (latest operation
first): the value last assigned since it was last deleted. -/
def Spec.fieldAfter (sy : Symbols) : List (FieldOp V) → String → Option V
  | [], _ => none
  | op :: before, name =>
    let old := Spec.fieldAfter sy before name
    match op with
    | .setItem key v => if Spec.canon sy key = name then some v else old
    | .delItem key => if key = name then none else old
    | .attrSet symbol (some v) => if sy.get? symbol = some name then some v else old
    | .attrSet _ none => old
    | .attrDel symbol => if sy.get? symbol = some name then none else old

/-- The dictionary after a history; operations that raise change nothing. -/
def FieldDict.after (sy : Symbols) : List (FieldOp V) → FieldDict V
  | [] => []
  | op :: before => match (FieldDict.after sy before).run sy op with
    | .ok d => d
    | .error _ => FieldDict.after sy before

/-- No canonical name is a symbol. -/
def Symbols.Proper (sy : Symbols) : Prop := ∀ s n, sy.get? s = some n → sy.get? n = none

/-- The table of `flowfields` is proper, and different symbols have different names. -/
theorem flowSymbols_proper : Symbols.Proper flowSymbols ∧ (flowSymbols.map Prod.snd).Nodup := by
  refine ⟨fun s n h => ?_, by decide⟩
  have hm : (s, n) ∈ flowSymbols := Dict.mem_of_get? h
  have : ∀ e ∈ flowSymbols, flowSymbols.get? e.2 = none := by decide
  exact this _ hm

theorem setItem_eq (sy : Symbols) (d : FieldDict V) (key : String) (v : V) :
    d.setItem sy key v = Dict.set d (Spec.canon sy key) v := by
  unfold FieldDict.setItem ngsKey Spec.canon
  cases sy.get? key <;> rfl

theorem ngsKey_eq (sy : Symbols) (key : String) : ngsKey sy key = Spec.canon sy key := by
  unfold ngsKey Spec.canon
  cases sy.get? key <;> rfl

theorem delItem_get (d : FieldDict V) (key name : String) :
    ∀ d', (match d.delItem key with | .ok d' => d' | .error _ => d) = d' →
      Dict.get? d' name = if key = name then none else Dict.get? d name := by
  rintro _ rfl
  unfold FieldDict.delItem
  by_cases h : Dict.has d key = true
  · simp only [h, if_true]
    rw [Dict.get?_erase]
    by_cases e : key = name
    · simp [e]
    · have : ¬ name = key := fun e' => e e'.symm
      simp [e, this]
  · simp only [h, Bool.false_eq_true, if_false]
    by_cases e : key = name
    · subst e
      rw [if_pos rfl]
      exact Dict.get?_eq_none.2 fun hk => h (Dict.has_iff.2 hk)
    · simp [e]

theorem after_get (sy : Symbols) (hp : sy.Proper) (ops : List (FieldOp V)) (name : String) :
    Dict.get? (FieldDict.after sy ops) name = Spec.fieldAfter sy ops name := by
  induction ops with
  | nil => rfl
  | cons op before ih =>
    cases op with
    | setItem key v =>
      simp only [FieldDict.after, FieldDict.run, Spec.fieldAfter]
      rw [setItem_eq, Dict.get?_set, ih]
      by_cases h : Spec.canon sy key = name
      · simp [h]
      · have : ¬ name = Spec.canon sy key := fun e => h e.symm
        simp [h, this]
    | delItem key =>
      simp only [FieldDict.after, FieldDict.run, Spec.fieldAfter]
      rw [delItem_get (FieldDict.after sy before) key name _ rfl, ih]
    | attrSet s v =>
      simp only [FieldDict.after, FieldDict.run, Spec.fieldAfter]
      cases hs : sy.get? s with
      | none =>
        simp only
        rw [ih]
        cases v <;> simp [hs]
      | some n =>
        cases v with
        | none => simpa [FieldDict.attrSet] using ih
        | some v =>
          simp only [FieldDict.attrSet]
          have hc : Spec.canon sy n = n := by simp [Spec.canon, hp s n hs]
          rw [setItem_eq, Dict.get?_set, ih, hc]
          by_cases h : n = name
          · subst h; simp [hs]
          · have : ¬ name = n := fun e => h e.symm
            simp [h, this, hs]
    | attrDel s =>
      simp only [FieldDict.after, FieldDict.run, Spec.fieldAfter]
      cases hs : sy.get? s with
      | none => simp [ih]
      | some n =>
        simp only
        rw [delItem_get (FieldDict.after sy before) n name _ rfl, ih]
        simp

/-- **C15** After any history of assignments by name, symbol or attribute and of deletions, reading a
quantity by attribute gives the value last assigned since it was last deleted, or `None`;
reading it by its canonical name gives the same value or raises `KeyError`. -/
theorem C15_last_assigned (ops : List (FieldOp V)) (symbol name : String)
    (h : flowSymbols.get? symbol = some name) :
    (FieldDict.after flowSymbols ops).attrGet flowSymbols symbol =
      .ok (Spec.fieldAfter flowSymbols ops name) ∧
    (FieldDict.after flowSymbols ops).getItem name =
      match Spec.fieldAfter flowSymbols ops name with
      | some v => .ok v
      | none => .error .keyError := by
  have := after_get flowSymbols flowSymbols_proper.1 ops name
  refine ⟨by simp [FieldDict.attrGet, h, this], ?_⟩
  unfold FieldDict.getItem
  rw [this]
  cases Spec.fieldAfter flowSymbols ops name <;> rfl

/-- **C15** The same for entries that are not predefined quantities. -/
theorem C15_other_entries (ops : List (FieldOp V)) (name : String) :
    (FieldDict.after flowSymbols ops).getItem name =
      match Spec.fieldAfter flowSymbols ops name with
      | some v => .ok v
      | none => .error .keyError := by
  unfold FieldDict.getItem
  rw [after_get flowSymbols flowSymbols_proper.1 ops name]
  cases Spec.fieldAfter flowSymbols ops name <;> rfl

theorem keys_erase (d : Dict String V) (k : String) : (d.erase k).keys = d.keys.filter (· ≠ k) := by
  unfold Dict.erase Dict.keys
  induction d with
  | nil => rfl
  | cons a t ih =>
    by_cases h : a.1 = k
    · simpa [h] using ih
    · simpa [h] using ih

/-- **C15** Iterating gives every quantity that holds a value exactly once, under its
canonical name and never under its symbol. -/
theorem C15_iteration (ops : List (FieldOp V)) :
    (FieldDict.after flowSymbols ops).keys.Nodup ∧
    (∀ name, name ∈ (FieldDict.after flowSymbols ops).keys ↔
      (Spec.fieldAfter flowSymbols ops name).isSome) ∧
    ∀ symbol, (flowSymbols.get? symbol).isSome →
      symbol ∉ (FieldDict.after flowSymbols ops).keys := by
  have hg := after_get (V := V) flowSymbols flowSymbols_proper.1
  have hmem : ∀ (ops : List (FieldOp V)) name, name ∈ (FieldDict.after flowSymbols ops).keys ↔
      (Spec.fieldAfter flowSymbols ops name).isSome := by
    intro ops name
    rw [← hg ops name]
    constructor
    · intro h
      rw [Option.isSome_iff_ne_none]
      intro h'
      exact Dict.get?_eq_none.1 h' h
    · intro h
      by_contra h'
      rw [Dict.get?_eq_none.2 h'] at h
      simp at h
  have hdel : ∀ (d : FieldDict V) (k : String), d.keys.Nodup →
      (match d.delItem k with | .ok d' => d' | .error _ => d).keys.Nodup := by
    intro d k hd
    unfold FieldDict.delItem
    split_ifs
    · simp only
      rw [keys_erase]
      exact hd.filter _
    · exact hd
  refine ⟨?_, hmem ops, ?_⟩
  · induction ops with
    | nil => simp [FieldDict.after, Dict.keys]
    | cons op before ih =>
      cases op with
      | setItem key v =>
        simp only [FieldDict.after, FieldDict.run]
        rw [setItem_eq]
        exact Dict.nodup_set ih _ _
      | delItem key =>
        simp only [FieldDict.after, FieldDict.run]
        exact hdel _ _ ih
      | attrSet s v =>
        simp only [FieldDict.after, FieldDict.run]
        cases hs : flowSymbols.get? s with
        | none => exact ih
        | some n =>
          cases v with
          | none => exact ih
          | some v =>
            simp only [FieldDict.attrSet]
            rw [setItem_eq]
            exact Dict.nodup_set ih _ _
      | attrDel s =>
        simp only [FieldDict.after, FieldDict.run]
        cases hs : flowSymbols.get? s with
        | none => exact ih
        | some n => exact hdel _ _ ih
  · intro symbol hsy hk
    rw [hmem] at hk
    -- no operation assigns under a symbol
    have : Spec.fieldAfter flowSymbols ops symbol = none := by
      obtain ⟨n, hn⟩ := Option.isSome_iff_exists.1 hsy
      have hnot : ∀ k, Spec.canon flowSymbols k ≠ symbol := by
        intro k hk
        unfold Spec.canon at hk
        cases hgk : flowSymbols.get? k with
        | none => rw [hgk] at hk; simp at hk; rw [hk, hn] at hgk; simp at hgk
        | some m =>
          rw [hgk] at hk
          simp at hk
          have := flowSymbols_proper.1 k m hgk
          rw [hk, hn] at this
          simp at this
      have hnot' : ∀ s, flowSymbols.get? s ≠ some symbol := by
        intro s hs
        have := flowSymbols_proper.1 s symbol hs
        rw [hn] at this
        simp at this
      clear hk
      induction ops with
      | nil => rfl
      | cons op before ih =>
        cases op with
        | setItem key v => simp [Spec.fieldAfter, hnot key, ih]
        | delItem key => simp [Spec.fieldAfter, ih]
        | attrSet s v => cases v <;> simp [Spec.fieldAfter, hnot' s, ih]
        | attrDel s => simp [Spec.fieldAfter, ih]
    rw [this] at hk
    simp at hk

/-- **C15 fails** for reading by symbol: after assigning by symbol, subscripting with the same
symbol raises `KeyError`, and `setdefault` with it overwrites the value. -/
theorem C15_fails_symbol_lookup (v w : V) :
    (FieldDict.setItem flowSymbols [] "rho" v).getItem "rho" = .error .keyError ∧
    ((FieldDict.setItem flowSymbols [] "rho" v).setDefault flowSymbols "rho" w).2.attrGet
      flowSymbols "rho" = .ok (some w) := by
  refine ⟨rfl, rfl⟩

/-- Non-vacuity: assignments through all three ways and a deletion. -/
example : Spec.fieldAfter flowSymbols
    [.setItem "rho" 3, .attrDel "rho", .attrSet "rho" none, .attrSet "rho" (some 2),
      .setItem "density" 1] "density" = some 3 := by decide

/-! ## C47 -/

/-- The request in force: what the user says, otherwise the four defaults. -/
def Spec.inForce (quantities : Dict String Bool) (key : String) : Bool :=
  match Dict.get? quantities key with
  | some b => b
  | none => key = "rho" ∨ key = "u" ∨ key = "p" ∨ key = "T"

theorem get?_dictUpdate {α : Type} (d e : Dict String α) (he : e.keys.Nodup) (k : String) :
    Dict.get? (dictUpdate d e) k = match Dict.get? e k with
      | some v => some v
      | none => Dict.get? d k := by
  induction e generalizing d with
  | nil => rfl
  | cons a t ih =>
    have hn := he
    simp only [Dict.keys, List.map_cons, List.nodup_cons] at hn
    rw [show dictUpdate d (a :: t) = dictUpdate (d.set a.1 a.2) t from rfl, ih _ hn.2, Dict.get?_set]
    by_cases h : a.1 = k
    · subst h
      have : Dict.get? t a.1 = none := Dict.get?_eq_none.2 hn.1
      rw [this]
      simp [Dict.get?]
    · have h' : ¬ k = a.1 := fun e => h e.symm
      have : Dict.get? (a :: t) k = Dict.get? t k := by simp [Dict.get?, h]
      rw [this]
      cases Dict.get? t k with
      | none => simp [h']
      | some v => rfl

theorem nodup_dictUpdate {α : Type} (d e : Dict String α) (hd : d.keys.Nodup) :
    (dictUpdate d e).keys.Nodup := by
  induction e generalizing d with
  | nil => exact hd
  | cons a t ih => exact ih _ (Dict.nodup_set hd _ _)

theorem get?_request (q : Dict String Bool) (hq : q.keys.Nodup) (k : String) :
    Dict.get? (dictUpdate defaultRequest q) k = some true ↔ Spec.inForce q k = true := by
  rw [get?_dictUpdate _ _ hq]
  unfold Spec.inForce
  cases Dict.get? q k with
  | some b => simp
  | none =>
    simp only [decide_eq_true_eq]
    constructor
    · intro h
      have hm := Dict.mem_of_get? h
      simp [defaultRequest] at hm
      exact hm
    · rintro (rfl | rfl | rfl | rfl) <;> rfl

open Classical in
/-- What the loop collects. -/
theorem getFields_fold (sy : Symbols) (U : FieldDict V) (hU : ∀ n ∈ U.keys, sy.get? n = none)
    (l : List (String × Bool)) (st : FieldDict V × Dict String Bool) (n : String) :
    Dict.get? (l.foldl (getFieldsStep sy U) st).1 n =
      if n ∈ U.keys ∧ ∃ k, (k, true) ∈ l ∧ Spec.canon sy k = n then Dict.get? U n
      else Dict.get? st.1 n := by
  induction l generalizing st with
  | nil => simp
  | cons a t ih =>
    rw [List.foldl_cons, ih]
    obtain ⟨k, b⟩ := a
    have hname := ngsKey_eq sy k
    by_cases h1 : n ∈ U.keys ∧ ∃ k, (k, true) ∈ t ∧ Spec.canon sy k = n
    · rw [if_pos h1, if_pos]
      obtain ⟨h2, k', h3, h4⟩ := h1
      exact ⟨h2, k', by simp [h3], h4⟩
    · rw [if_neg h1]
      unfold getFieldsStep
      simp only [hname]
      cases b with
      | false =>
        rw [if_pos rfl, if_neg]
        rintro ⟨h2, k', h3, h4⟩
        simp at h3
        exact h1 ⟨h2, k', h3, h4⟩
      | true =>
        simp only [Bool.true_eq_false, if_false]
        cases hg : Dict.get? U (Spec.canon sy k) with
        | none =>
          simp only
          rw [if_neg]
          rintro ⟨h2, k', h3, h4⟩
          simp at h3
          rcases h3 with rfl | h3
          · rw [← h4] at h2
            exact Dict.get?_eq_none.1 hg h2
          · exact h1 ⟨h2, k', h3, h4⟩
        | some v =>
          simp only
          have hmem : Spec.canon sy k ∈ U.keys := by
            by_contra h
            rw [Dict.get?_eq_none.2 h] at hg
            simp at hg
          rw [setItem_eq, Dict.get?_set]
          have hc : Spec.canon sy (Spec.canon sy k) = Spec.canon sy k := by
            conv_lhs => rw [Spec.canon]
            rw [hU _ hmem]; rfl
          rw [hc]
          by_cases hn : n = Spec.canon sy k
          · rw [if_pos hn, if_pos ⟨by rw [hn]; exact hmem, k, by simp, hn.symm⟩, hn, hg]
          · rw [if_neg hn, if_neg]
            rintro ⟨h2, k', h3, h4⟩
            simp at h3
            rcases h3 with rfl | h3
            · exact hn h4.symm
            · exact h1 ⟨h2, k', h3, h4⟩

open Classical in
/-- **C47** A field is delivered exactly if it exists and some key in force (a request, or a
default that is not switched off under its symbol) denotes it; its value is that of the
state. -/
theorem C47_delivered_partial (U : FieldDict V) (hU : ∀ n ∈ U.keys, flowSymbols.get? n = none)
    (q : Dict String Bool) (hq : q.keys.Nodup) (n : String) :
    Dict.get? (getFields flowSymbols U q).1 n =
      if ∃ k, Spec.inForce q k = true ∧ Spec.canon flowSymbols k = n then Dict.get? U n
      else none := by
  unfold getFields
  rw [getFields_fold flowSymbols U hU]
  have hnd : (dictUpdate defaultRequest q).keys.Nodup :=
    nodup_dictUpdate _ _ (by decide)
  have hex : (∃ k, (k, true) ∈ dictUpdate defaultRequest q ∧ Spec.canon flowSymbols k = n) ↔
      ∃ k, Spec.inForce q k = true ∧ Spec.canon flowSymbols k = n := by
    constructor
    · rintro ⟨k, h1, h2⟩
      exact ⟨k, (get?_request q hq k).1 (Dict.get?_of_mem hnd h1), h2⟩
    · rintro ⟨k, h1, h2⟩
      exact ⟨k, Dict.mem_of_get? ((get?_request q hq k).2 h1), h2⟩
  rw [hex]
  by_cases hn : n ∈ U.keys
  · by_cases h : ∃ k, Spec.inForce q k = true ∧ Spec.canon flowSymbols k = n
    · rw [if_pos ⟨hn, h⟩, if_pos h]
    · rw [if_neg (fun hh => h hh.2), if_neg h]; rfl
  · have : Dict.get? U n = none := Dict.get?_eq_none.2 hn
    rw [if_neg (fun hh => hn hh.1), this]
    split_ifs <;> rfl

/-- What the loop leaves of the request. -/
theorem getFields_left (sy : Symbols) (U : FieldDict V) (hU : ∀ n ∈ U.keys, sy.get? n = none)
    (l : List (String × Bool)) (st : FieldDict V × Dict String Bool) (k : String) :
    ((k ∈ (l.foldl (getFieldsStep sy U) st).2.keys → k ∈ st.2.keys) ∧
    (k ∈ st.2.keys → Spec.canon sy k ∉ U.keys → k ∈ (l.foldl (getFieldsStep sy U) st).2.keys)) ∧
    ((k, true) ∈ l → Spec.canon sy k ∈ U.keys → k ∉ (l.foldl (getFieldsStep sy U) st).2.keys) := by
  induction l generalizing st with
  | nil => exact ⟨⟨id, fun h _ => h⟩, by simp⟩
  | cons a t ih =>
    rw [List.foldl_cons]
    obtain ⟨s, b⟩ := a
    have hname := ngsKey_eq sy s
    -- one step
    have hstep : (k ∈ (getFieldsStep sy U st (s, b)).2.keys → k ∈ st.2.keys) ∧
        (k ∈ st.2.keys → Spec.canon sy k ∉ U.keys → k ∈ (getFieldsStep sy U st (s, b)).2.keys) ∧
        (s = k → b = true → Spec.canon sy k ∈ U.keys →
          k ∉ (getFieldsStep sy U st (s, b)).2.keys) := by
      unfold getFieldsStep
      simp only [hname]
      cases b with
      | false => exact ⟨id, fun h _ => h, fun _ h => by cases h⟩
      | true =>
        simp only [Bool.true_eq_false, if_false]
        cases hg : Dict.get? U (Spec.canon sy s) with
        | none =>
          refine ⟨id, fun h _ => h, ?_⟩
          rintro rfl _ h
          exact absurd h (Dict.get?_eq_none.1 hg)
        | some v =>
          have hmem : Spec.canon sy s ∈ U.keys := by
            by_contra h
            rw [Dict.get?_eq_none.2 h] at hg
            simp at hg
          have hc : Spec.canon sy (Spec.canon sy s) = Spec.canon sy s := by
            conv_lhs => rw [Spec.canon]
            rw [hU _ hmem]; rfl
          split_ifs with h1 h2
          · rw [keys_erase]
            simp only [List.mem_filter, decide_eq_true_eq]
            refine ⟨fun h => h.1, fun h1 h2 => ⟨h1, ?_⟩, ?_⟩
            · rintro rfl; exact h2 hmem
            · rintro rfl _ _; simp
          · rw [keys_erase]
            simp only [List.mem_filter, decide_eq_true_eq]
            refine ⟨fun h => h.1, fun h1 h2 => ⟨h1, ?_⟩, ?_⟩
            · rintro rfl; rw [hc] at h2; exact h2 hmem
            · rintro rfl _ _ ⟨h3, _⟩; exact h1 (Dict.has_iff.2 h3)
          · refine ⟨id, fun h _ => h, ?_⟩
            rintro rfl _ _ h3
            exact h1 (Dict.has_iff.2 h3)
    obtain ⟨⟨i1, i2⟩, i3⟩ := ih (getFieldsStep sy U st (s, b))
    refine ⟨⟨fun h => hstep.1 (i1 h), fun h1 h2 => i2 (hstep.2.1 h1 h2) h2⟩, ?_⟩
    intro h1 h2 h3
    rcases List.mem_cons.1 h1 with h1 | h1
    · simp only [Prod.mk.injEq] at h1
      exact hstep.2.2 h1.1.symm h1.2.symm h2 (i1 h3)
    · exact i3 h1 h2 h3

/-- **C47** A quantity that is requested and exists is not reported as missing; one that
does not exist is. -/
theorem C47_reported (U : FieldDict V) (hU : ∀ n ∈ U.keys, flowSymbols.get? n = none)
    (q : Dict String Bool) (hq : q.keys.Nodup) (k : String) (hk : Dict.get? q k = some true) :
    k ∈ (getFields flowSymbols U q).2.keys ↔ Spec.canon flowSymbols k ∉ U.keys := by
  obtain ⟨⟨-, h2⟩, h3⟩ := getFields_left flowSymbols U hU (dictUpdate defaultRequest q) ([], q) k
  constructor
  · intro h hn
    have hin : Spec.inForce q k = true := by simp [Spec.inForce, hk]
    exact h3 (Dict.mem_of_get? ((get?_request q hq k).2 hin)) hn h
  · intro h
    refine h2 ?_ h
    exact List.mem_map.2 ⟨_, Dict.mem_of_get? hk, rfl⟩

/-- **C47 fails**: switching a default off by its name instead of its symbol is ignored. -/
theorem C47_fails_off_by_name (U : FieldDict V)
    (hU : ∀ n ∈ U.keys, flowSymbols.get? n = none) (v : V) (h : Dict.get? U "density" = some v) :
    Dict.get? (getFields flowSymbols U [("density", false)]).1 "density" = some v := by
  rw [C47_delivered_partial U hU _ (by decide), if_pos, h]
  exact ⟨"rho", by decide, by decide⟩

/-- Non-vacuity: a state, a request for an additional field by symbol, one switched off. -/
example : (getFields flowSymbols [("density", 1), ("velocity", 2), ("pressure", 3),
    ("temperature", 4), ("energy", 5)] [("rho_E", true), ("T", false), ("foo", true)]).1 =
      [("density", 1), ("velocity", 2), ("pressure", 3), ("energy", 5)] := by decide

end Dream
