import Verif.Model.Spaces
import Verif.Props.Conditions
import Verif.Props.Initial
import Mathlib.Data.Fin.VecNotation
import Mathlib.Tactic.Linarith
import Mathlib.Tactic.Ring
import Mathlib.Tactic.NormNum
import Mathlib.Algebra.BigOperators.Fin

/-!
# C71: variables and components; C72: polynomial orders; C73: functions of sponge layers
-/

namespace Dream

/-! ## C71 -/

theorem parts_foldl (ss : List SimpleSpace) (s : Space) :
    ((ss.map Space.simple).foldl Space.mul s).parts = s.parts ++ ss := by
  induction ss generalizing s with
  | nil => simp
  | cons a t ih =>
    rw [List.map_cons, List.foldl_cons, ih]
    simp [Space.mul, Space.parts]

theorem blocks_flatten {α : Type} (ns : List ℕ) (vals : List (List α))
    (h : vals.map List.length = ns) : blocks ns vals.flatten = vals := by
  induction vals generalizing ns with
  | nil => cases h; rfl
  | cons v t ih =>
    cases h
    simp only [blocks, List.flatten_cons, List.take_left', List.drop_left', List.cons.injEq,
      true_and, List.map_cons, List.take_left, List.drop_left]
    exact ih _ rfl

theorem blocks_length {α : Type} (ns : List ℕ) (v : List α) (h : v.length = ns.sum) :
    (blocks ns v).map List.length = ns ∧ (blocks ns v).flatten = v := by
  induction ns generalizing v with
  | nil => simp only [List.sum_nil, List.length_eq_zero_iff] at h; subst h; exact ⟨rfl, rfl⟩
  | cons n t ih =>
    simp only [List.sum_cons] at h
    obtain ⟨h1, h2⟩ := ih (v.drop n) (by simp; omega)
    refine ⟨?_, ?_⟩
    · simp only [blocks, List.map_cons, h1, List.length_take, List.cons.injEq, and_true]
      omega
    · simp only [blocks, List.flatten_cons, h2, List.take_append_drop]

theorem tnt_zip (sp : List (Name × SimpleSpace)) :
    (sp.map Prod.fst).zip ((((sp.map Prod.snd).zipIdx.map fun x => (⟨x.2, x.1, false⟩ : Proxy))).zip
      ((sp.map Prod.snd).zipIdx.map fun x => (⟨x.2, x.1, true⟩ : Proxy)))
    = sp.zipIdx.map fun x => (x.1.1, (⟨x.2, x.1.2, false⟩, ⟨x.2, x.1.2, true⟩)) := by
  apply List.ext_getElem
  · simp
  · intro i h1 h2
    simp

theorem tnt_keys (sp : List (Name × SimpleSpace)) :
    (sp.zipIdx.map fun x =>
      (x.1.1, ((⟨x.2, x.1.2, false⟩, ⟨x.2, x.1.2, true⟩) : Proxy × Proxy))).map Prod.fst
    = sp.map Prod.fst := by
  apply List.ext_getElem
  · simp
  · intro i h1 h2
    simp

/-- **C71** For every non-empty dictionary of variables and their spaces: the solution space is
the product of the spaces in that order, and each variable has the trial and the test function of
its own component. -/
theorem C71_trial_test (spaces : Dict Name SimpleSpace) (hne : spaces ≠ [])
    (hd : spaces.keys.Nodup) :
    let d : Dict Name Space := spaces.map fun kv => (kv.1, .simple kv.2)
    ∃ fes, initializeSpaces d = .ok fes ∧ fes.parts = spaces.map Prod.snd ∧
      (initializeTnT d fes).keys = spaces.keys ∧
      ∀ i (h : i < spaces.length), (initializeTnT d fes).get? spaces[i].1
        = some (⟨i, spaces[i].2, false⟩, ⟨i, spaces[i].2, true⟩) := by
  intro d
  obtain ⟨⟨l, s⟩, rest, rfl⟩ := List.exists_cons_of_ne_nil hne
  refine ⟨(rest.map fun kv => Space.simple kv.2).foldl Space.mul (.simple s), ?_, ?_, ?_⟩
  · simp only [initializeSpaces, d, List.map_cons, List.map_map, Function.comp_def]
  · rw [show (rest.map fun kv => Space.simple kv.2) = (rest.map Prod.snd).map Space.simple by simp,
      parts_foldl]
    rfl
  · have hp : ((rest.map fun kv => Space.simple kv.2).foldl Space.mul (.simple s)).parts
        = ((l, s) :: rest).map Prod.snd := by
      rw [show (rest.map fun kv => Space.simple kv.2) = (rest.map Prod.snd).map Space.simple by
        simp, parts_foldl]
      rfl
    generalize (rest.map fun kv => Space.simple kv.2).foldl Space.mul (.simple s) = fes at hp
    have e : initializeTnT d fes = ((l, s) :: rest).zipIdx.map fun x =>
        (x.1.1, (⟨x.2, x.1.2, false⟩, ⟨x.2, x.1.2, true⟩)) := by
      unfold initializeTnT
      have hk : d.keys = ((l, s) :: rest).map Prod.fst := by
        simp [d, Dict.keys]
      rw [hk]
      split_ifs with hl
      · rw [Space.proxies, Space.proxies, hp]
        exact tnt_zip _
      · have : rest = [] := by
          simp only [d, List.length_map, List.length_cons] at hl
          exact List.length_eq_zero_iff.1 (by omega)
        subst this
        simp [Space.proxies, hp]
    rw [e]
    have hk : (Dict.keys (((l, s) :: rest).zipIdx.map fun x =>
        (x.1.1, ((⟨x.2, x.1.2, false⟩, ⟨x.2, x.1.2, true⟩) : Proxy × Proxy))))
        = Dict.keys ((l, s) :: rest) := tnt_keys _
    refine ⟨hk, fun i h => ?_⟩
    apply Dict.get?_of_mem (by rw [hk]; exact hd)
    refine List.mem_map.2 ⟨(((l, s) :: rest)[i], i), ?_, rfl⟩
    rw [List.mem_zipIdx_iff_getElem?]
    simp [h]

/-- **C71** The values of the variables are the consecutive blocks of the solution vector: for any
values of the right lengths, the vector made of them is read back variable by variable, and every
vector is of this form. -/
theorem C71_values {α : Type} (spaces : Dict Name SimpleSpace) (hne : spaces ≠ []) :
    let d : Dict Name Space := spaces.map fun kv => (kv.1, .simple kv.2)
    ∃ fes, initializeSpaces d = .ok fes ∧
      (∀ vals : List (List α), vals.map List.length = spaces.map (fun kv => kv.2.ndof) →
        initializeGfus d fes vals.flatten = spaces.keys.zip vals) ∧
      (∀ vec : List α, vec.length = (spaces.map fun kv => kv.2.ndof).sum →
        ∃ vals : List (List α), vals.map List.length = spaces.map (fun kv => kv.2.ndof) ∧
          vals.flatten = vec) := by
  intro d
  obtain ⟨⟨l, s⟩, rest, rfl⟩ := List.exists_cons_of_ne_nil hne
  refine ⟨(rest.map fun kv => Space.simple kv.2).foldl Space.mul (.simple s), ?_, ?_, ?_⟩
  · simp only [initializeSpaces, d, List.map_cons, List.map_map, Function.comp_def]
  · intro vals hv
    have hp : ((rest.map fun kv => Space.simple kv.2).foldl Space.mul (.simple s)).parts
        = ((l, s) :: rest).map Prod.snd := by
      rw [show (rest.map fun kv => Space.simple kv.2) = (rest.map Prod.snd).map Space.simple by
        simp, parts_foldl]
      rfl
    have hk : d.keys = Dict.keys ((l, s) :: rest) := by simp [d, Dict.keys]
    unfold initializeGfus
    rw [hk]
    split_ifs with hl
    · rw [Space.components, hp, blocks_flatten _ vals (by rw [hv]; simp)]
    · have : rest = [] := by
        simp only [d, List.length_map, List.length_cons] at hl
        exact List.length_eq_zero_iff.1 (by omega)
      subst this
      obtain ⟨v, rfl⟩ : ∃ v, vals = [v] := by
        have := congrArg List.length hv
        simp only [List.length_map, List.length_cons, List.length_nil] at this
        exact List.length_eq_one_iff.1 this
      simp [Dict.keys]
  · intro vec h
    exact ⟨_, blocks_length _ vec h⟩

/-- **C71** A method that provides no space is refused. -/
theorem C71_empty : initializeSpaces [] = .error .valueError := rfl

/-- **C71** The spaces of the compressible solver: `U` and `Uhat` have one component for density
and energy and one for each direction of the momentum; an accepted viscous configuration has a
third space `Q`, an inviscid one has not. With the strain-heat method `Q` has one component for
each entry of a symmetric tensor and each direction of the heat flux in two and three dimensions,
with the gradient method one vector for each component of `U`. -/
theorem C71_flow {dim : ℕ} {m : MixedMethod} {cfg : FlowCfg} {fes : Dict Name ℕ}
    (h : flowSpaces dim m cfg = .ok fes) :
    fes.keys.Nodup ∧ fes.get? "U".toList = some (dim + 2) ∧
      fes.get? "Uhat".toList = some (dim + 2) ∧
      (fes.get? "Q".toList = none ↔ cfg.visc = .inviscid) ∧
      (m = .strainHeat → dim = 2 ∨ dim = 3 →
        fes.get? "Q".toList = some (dim * (dim + 1) / 2 + dim)) ∧
      (m = .gradient → fes.get? "Q".toList = some (dim + 2)) := by
  revert h
  unfold flowSpaces
  cases m <;> cases hv : cfg.visc <;>
    simp [mixedMethodCheck, hv, bind, Except.bind, Dict.set, Dict.has, Dict.get?, Dict.keys] <;>
    rintro rfl <;> simp +decide <;> try (first | omega | (rintro (rfl | rfl) <;> rfl))
  rintro a b (⟨rfl, -⟩ | ⟨rfl, -⟩) <;> decide

/-- C71, concrete instance: the three spaces of a viscous flow. -/
example :
    let sp : Dict Name SimpleSpace := [("U".toList, ⟨0, 12⟩), ("Uhat".toList, ⟨1, 20⟩),
      ("Q".toList, ⟨2, 15⟩)]
    sp ≠ [] ∧ sp.keys.Nodup ∧ ∃ fes, initializeSpaces (sp.map fun kv => (kv.1, .simple kv.2)) = .ok fes ∧
      (initializeTnT (sp.map fun kv => (kv.1, .simple kv.2)) fes).get? "Q".toList
        = some (⟨2, ⟨2, 15⟩, false⟩, ⟨2, ⟨2, 15⟩, true⟩) :=
  ⟨by decide, by decide, _, rfl, by decide⟩

/-! ## C72 -/

theorem foldlM_ok {α β : Type} (f : β → α → Except PyErr β) (g : β → α → β) (l : List α) (b : β)
    (h : ∀ a ∈ l, ∀ b, f b a = .ok (g b a)) : l.foldlM f b = .ok (l.foldl g b) := by
  induction l generalizing b with
  | nil => rfl
  | cons a t ih =>
    rw [List.foldlM_cons, h a (by simp)]
    exact ih _ fun x hx => h x (by simp [hx])

theorem foldlM_error {α β : Type} (f : β → α → Except PyErr β) {e : PyErr} (l : List α) (b : β)
    (h : ∃ a ∈ l, ∀ b, f b a = .error e)
    (ho : ∀ a ∈ l, ∀ b e', f b a = .error e' → e' = e) : l.foldlM f b = .error e := by
  induction l generalizing b with
  | nil => obtain ⟨a, ha, -⟩ := h; simp at ha
  | cons a t ih =>
    rw [List.foldlM_cons]
    cases hb : f b a with
    | error e' => rw [ho a (by simp) b e' hb]; rfl
    | ok y =>
      refine ih y ?_ fun x hx => ho x (by simp [hx])
      obtain ⟨x, hx, hxe⟩ := h
      rcases List.mem_cons.1 hx with rfl | hx
      · rw [hxe] at hb; cases hb
      · exact ⟨x, hx, hxe⟩

theorem orders_materialCF {E : Type} (v : Cond → ℤ) (region : E → Name) (layers : Dict Name Cond)
    (o : ℤ) (e : E) :
    layers.foldl (fun (ord : E → ℤ) kv e => if region e ∈ splitBar kv.1 then v kv.2 else ord e)
      (fun _ => o) e
    = (materialCF (layers.map fun kv => (kv.1, v kv.2)) (region e)).getD o := by
  have key : ∀ (ord : E → ℤ) (acc : Option ℤ), ord e = acc.getD o →
      layers.foldl (fun (ord : E → ℤ) kv e => if region e ∈ splitBar kv.1 then v kv.2 else ord e)
        ord e
      = ((layers.map fun kv => (kv.1, v kv.2)).foldl
          (fun acc kv => if region e ∈ splitBar kv.1 then some kv.2 else acc) acc).getD o := by
    induction layers with
    | nil => intro ord acc h; exact h
    | cons a t ih =>
      intro ord acc h
      rw [List.foldl_cons, List.map_cons, List.foldl_cons]
      apply ih
      by_cases hr : region e ∈ splitBar a.1
      · simp [hr]
      · simp [hr, h]
  exact key _ none rfl

/-- **C72** With at most one p-sponge layer in each region and orders that do not exceed the order
of the method, the elements of a p-sponge layer get the `high_order` of their layer, all others
keep the order of the method; in every iteration order of the set of conditions. -/
theorem C72_elements {E : Type} (dcs : Conditions) (hC : dcs.regions.Nodup)
    (hbar : ∀ r ∈ dcs.regions, '|' ∉ r) {order : List Cond} (ho : dcs.SetOrder .pspongeLayer order)
    (high : Cond → ℤ) (global : ℤ) (hhigh : ∀ c ∈ dcs.assignedOf .pspongeLayer, high c ≤ global)
    (one : ∀ r l, dcs.data.get? r = some l → ∀ c ∈ l, ∀ c' ∈ l, c.isA .pspongeLayer = true →
      c'.isA .pspongeLayer = true → c = c') (region : E → Name) :
    ∃ ord, reduceElementwise true global high region (dcs.toPattern order) = .ok ord ∧
      ∀ e l, dcs.data.get? (region e) = some l →
        (∀ c ∈ l, c.isA .pspongeLayer = true → ord e = high c) ∧
        ((∀ c ∈ l, c.isA .pspongeLayer = false) → ord e = global) := by
  refine ⟨(dcs.toPattern order).foldl (fun (ord : E → ℤ) kv e =>
    if region e ∈ splitBar kv.1 then high kv.2 else ord e) (fun _ => global), ?_, ?_⟩
  · rw [reduceElementwise]
    refine foldlM_ok _ _ _ _ ?_
    rintro ⟨p, c⟩ hk ord
    have := hhigh c ((ho.2 c).1 (toPattern_item dcs order p c hk).2)
    rw [reduceRound, if_neg (by simpa using this)]
  · intro e l hl
    rw [orders_materialCF]
    obtain ⟨h1, h2⟩ := materialCF_grouping .pspongeLayer dcs hC hbar ho high hl
    constructor
    · intro c hc hi
      obtain ⟨c', hc', hi', he⟩ := h2 ⟨c, hc, hi⟩
      rw [he, one _ l hl c' hc' c hc hi' hi]
      rfl
    · intro h
      rw [h1 h]
      rfl

/-- **C72** Spaces of another kind than elementwise polynomials, and functions on facets, are
refused, whatever the layers are. -/
theorem C72_space_refused {E : Type} {nf p : ℕ} (S : FacetSpace nf p) (g : ℤ) (dim : ℕ)
    (high : Cond → ℤ) (region : E → Name) (layers : Dict Name Cond) :
    reduceElementwise false g high region layers = .error .typeError ∧
    reduceFacetwise S false dim high layers = .error .typeError :=
  ⟨rfl, rfl⟩

/-- **C72** A layer whose order exceeds the order of the method is refused, for the elements and
for the facets, unless another layer is assigned to exactly the same regions. -/
theorem C72_refused {E : Type} {nf p : ℕ} (S : FacetSpace nf p) (dcs : Conditions)
    {order : List Cond} (high : Cond → ℤ) (region : E → Name) {c : Cond} (hc : c ∈ order)
    (hk : ∀ c' ∈ order, dcs.keyOf c' = dcs.keyOf c → c' = c) (hp : (p : ℤ) < high c) :
    reduceElementwise true p high region (dcs.toPattern order) = .error .valueError ∧
    reduceFacetwise S true 2 high (dcs.toPattern order) = .error .valueError := by
  obtain ⟨c', hc'⟩ := toPattern_key dcs order c hc
  obtain ⟨h1, h2⟩ := toPattern_item dcs order _ c' hc'
  obtain rfl := hk c' h2 h1.symm
  constructor
  · rw [reduceElementwise]
    refine foldlM_error _ _ _ ⟨_, hc', fun b => by rw [reduceRound, if_pos hp]⟩ ?_
    intro a _ b e' h
    rw [reduceRound] at h
    split_ifs at h
    cases h
    rfl
  · rw [reduceFacetwise, if_neg (by simp), if_neg, if_neg (by simp)]
    · refine foldlM_error _ _ _ ⟨_, hc', fun b => by rw [facetRound, if_pos hp]⟩ ?_
      intro a _ b e' h
      rw [facetRound] at h
      split_ifs at h
      cases h
      rfl
    · intro h
      rw [List.isEmpty_iff] at h
      rw [h] at hc'
      simp at hc'

/-- `splitBar` of joined strings. -/
theorem splitBar_bar (a b : Name) : splitBar (a ++ '|' :: b) = splitBar a ++ splitBar b := by
  induction a with
  | nil => simp [splitBar]
  | cons x t ih =>
    by_cases hx : x = '|'
    · subst hx
      simp only [List.cons_append, splitBar, if_true, ih]
    · simp only [List.cons_append, splitBar, if_neg hx, ih]
      cases h : splitBar t with
      | nil => exact absurd h (splitBar_ne_nil t)
      | cons y ys => rfl

theorem splitBar_join {xs : List Name} (hne : xs ≠ []) (r : Name) :
    r ∈ splitBar (getPatternFromSequence (.seq xs)) ↔ ∃ x ∈ xs, r ∈ splitBar x := by
  induction xs with
  | nil => exact absurd rfl hne
  | cons a t ih =>
    cases t with
    | nil => simp [getPatternFromSequence]
    | cons b t =>
      have : getPatternFromSequence (.seq (a :: b :: t))
          = a ++ '|' :: getPatternFromSequence (.seq (b :: t)) := intercalate_cons_cons a b t
      rw [this, splitBar_bar, List.mem_append, ih (by simp)]
      simp

theorem clearHigh_apply (p : ℕ) (high : ℤ) (bits : ℕ → Bool) (i : ℕ) :
    clearHigh p high bits i = true ↔ bits i = true ∧
      ∀ j, high.toNat < j → j ≤ p → ¬ (j ≤ i ∧ (i - j) % (p + 1) = 0) := by
  have key : ∀ (l : List ℕ) (bits : ℕ → Bool),
      (l.foldl (fun bits i => clearStride bits i (p + 1)) bits) i = true ↔
        bits i = true ∧ ∀ j ∈ l, ¬ (j ≤ i ∧ (i - j) % (p + 1) = 0) := by
    intro l
    induction l with
    | nil => simp
    | cons a t ih =>
      intro bits
      rw [List.foldl_cons, ih]
      simp only [clearStride, Bool.and_eq_true, Bool.not_eq_true', Bool.and_eq_false_iff,
        decide_eq_false_iff_not, List.forall_mem_cons]
      tauto
  rw [clearHigh, key]
  simp only [List.mem_range'_1]
  constructor
  · rintro ⟨h1, h2⟩
    exact ⟨h1, fun j hj hp => h2 j ⟨by omega, by omega⟩⟩
  · rintro ⟨h1, h2⟩
    exact ⟨h1, fun j hj => h2 j (by omega) (by omega)⟩

/-- In facet-major numbering the strides remove the high modes of every facet. -/
theorem clearHigh_facet (p f m : ℕ) (hm : m ≤ p) (high : ℤ) (h0 : 0 ≤ high) (bits : ℕ → Bool) :
    clearHigh p high bits (f * (p + 1) + m) = true ↔
      bits (f * (p + 1) + m) = true ∧ (m : ℤ) ≤ high := by
  rw [clearHigh_apply]
  refine and_congr_right fun _ => ⟨fun h => ?_, fun h j hj hp => ?_⟩
  · by_contra hc
    refine h m (by omega) hm ⟨by omega, ?_⟩
    simp
  · rintro ⟨h1, h2⟩
    have hjm : m < j := by omega
    obtain ⟨q, hq⟩ := Nat.dvd_of_mod_eq_zero h2
    have e : f * (p + 1) + m = j + (p + 1) * q := by omega
    have hmod : (f * (p + 1) + m) % (p + 1) = (j + (p + 1) * q) % (p + 1) := by rw [e]
    rw [Nat.mul_comm f, Nat.mul_add_mod, Nat.add_mul_mod_self_left, Nat.mod_eq_of_lt (by omega),
      Nat.mod_eq_of_lt (by omega)] at hmod
    omega

/-- **C72** If the unknowns of the facets are numbered facet by facet, then exactly these are kept:
all unknowns of facets at which no element belongs to a p-sponge layer, and of the other facets the
modes up to the largest `high_order` of the layers at the facet. Layers must have distinct sets of
regions (C37). -/
theorem C72_facets_partial {nf p : ℕ} (S : FacetSpace nf p)
    (hnum : ∀ f m, S.num f m = f * (p + 1) + m) (dcs : Conditions) (hC : dcs.regions.Nodup)
    (hbar : ∀ r ∈ dcs.regions, '|' ∉ r) {order : List Cond} (ho : dcs.SetOrder .pspongeLayer order)
    (high : Cond → ℤ)
    (hhigh : ∀ c ∈ dcs.assignedOf .pspongeLayer, 0 ≤ high c ∧ high c ≤ p)
    (hk : ∀ c ∈ order, ∀ c' ∈ order, dcs.keyOf c' = dcs.keyOf c → c' = c) :
    ∃ kept, reduceFacetwise S true 2 high (dcs.toPattern order) = .ok kept ∧
      ∀ (f : Fin nf) (m : Fin (p + 1)), kept (S.num f m) = true ↔
        (∀ r ∈ S.adj f, ∀ l, dcs.data.get? r = some l → ∀ c ∈ l, c.isA .pspongeLayer = false) ∨
        ∃ r ∈ S.adj f, ∃ l, dcs.data.get? r = some l ∧
          ∃ c ∈ l, c.isA .pspongeLayer = true ∧ ((m : ℕ) : ℤ) ≤ high c := by
  have hsub : ∀ c, ∀ r ∈ dcs.regionsOf c, '|' ∉ r := by
    intro c r hr
    obtain ⟨l, hl, -⟩ := (regionsOf_mem dcs hC c r).1 hr
    exact hbar r (mem_regions_iff.2 ⟨l, hl⟩)
  have hsplit : ∀ c ∈ order, ∀ r, r ∈ splitBar (dcs.keyOf c) ↔
      ∃ l, dcs.data.get? r = some l ∧ c ∈ l := by
    intro c hc r
    rw [show splitBar (dcs.keyOf c) = dcs.regionsOf c from
      split_join (regionsOf_ne_nil dcs ((ho.2 c).1 hc)) (hsub c), regionsOf_mem dcs hC]
  have hin : ∀ {r l c}, dcs.data.get? r = some l → c ∈ l → c.isA .pspongeLayer = true →
      c ∈ order := by
    intro r l c hl hc hi
    rw [ho.2]
    simp only [Conditions.assignedOf, List.mem_filter, List.mem_flatMap, Prod.exists]
    exact ⟨⟨r, l, Dict.mem_of_get? hl, hc⟩, hi⟩
  have hps : ∀ c ∈ order, c.isA .pspongeLayer = true := by
    intro c hc
    have := (ho.2 c).1 hc
    simp only [Conditions.assignedOf, List.mem_filter] at this
    exact this.2
  have hall : ∀ c ∈ order, (dcs.keyOf c, c) ∈ dcs.toPattern order := by
    intro c hc
    obtain ⟨c', hc'⟩ := toPattern_key dcs order c hc
    obtain ⟨h1, h2⟩ := toPattern_item dcs order _ c' hc'
    rwa [hk c hc c' h2 h1.symm] at hc'
  -- the facets' unknowns
  have hdofs : ∀ (pat : Name) (f : Fin nf) (m : Fin (p + 1)),
      S.getDofs pat (f * (p + 1) + m) = true ↔ ∃ r ∈ S.adj f, r ∈ splitBar pat := by
    intro pat f m
    rw [FacetSpace.getDofs, decide_eq_true_iff]
    constructor
    · rintro ⟨f', m', he, r, hr, hp⟩
      rw [hnum] at he
      have hf : (f' : ℕ) = f := by
        have h1 : ((f' : ℕ) * (p + 1) + m') / (p + 1) = (f * (p + 1) + m) / (p + 1) := by rw [he]
        rwa [Nat.mul_comm (f' : ℕ), Nat.mul_comm (f : ℕ), Nat.mul_add_div (by omega),
          Nat.mul_add_div (by omega), Nat.div_eq_of_lt m'.2, Nat.div_eq_of_lt m.2] at h1
      rw [Fin.ext hf] at hr
      exact ⟨r, hr, hp⟩
    · rintro ⟨r, hr, hp⟩
      exact ⟨f, m, hnum f m, r, hr, hp⟩
  by_cases hemp : (dcs.toPattern order).isEmpty
  · have hno : order = [] := by
      rcases order with _ | ⟨c, t⟩
      · rfl
      · have := hall c (by simp)
        rw [List.isEmpty_iff] at hemp
        rw [hemp] at this
        simp at this
    refine ⟨fun _ => true, by rw [reduceFacetwise, if_neg (by simp), if_pos hemp], fun f m => ?_⟩
    simp only [true_iff]
    left
    intro r _ l hl c hc
    by_contra hcon
    have := hin hl hc (by simpa using hcon)
    rw [hno] at this
    simp at this
  · have hne : (dcs.toPattern order).keys ≠ [] := by
      intro h
      apply hemp
      rw [Dict.keys, List.map_eq_nil_iff] at h
      rw [h]
      rfl
    refine ⟨(dcs.toPattern order).foldl (fun (vhat : ℕ → Bool) kv i =>
        vhat i || clearHigh p (high kv.2) (S.getDofs kv.1) i)
      (fun i => !S.getDofs (getPatternFromSequence (.seq (dcs.toPattern order).keys)) i), ?_, ?_⟩
    · rw [reduceFacetwise, if_neg (by simp), if_neg hemp, if_neg (by simp)]
      refine foldlM_ok _ _ _ _ ?_
      rintro ⟨q, c⟩ hq vhat
      have := hhigh c ((ho.2 c).1 (toPattern_item dcs order q c hq).2)
      rw [facetRound, if_neg (by simpa using this.2)]
    · have key : ∀ (L : Dict Name Cond) (v : ℕ → Bool) (i : ℕ),
          L.foldl (fun (vhat : ℕ → Bool) kv i =>
            vhat i || clearHigh p (high kv.2) (S.getDofs kv.1) i) v i = true ↔
          v i = true ∨ ∃ kv ∈ L, clearHigh p (high kv.2) (S.getDofs kv.1) i = true := by
        intro L
        induction L with
        | nil => simp
        | cons a t ih =>
          intro v i
          rw [List.foldl_cons, ih]
          simp only [Bool.or_eq_true, List.exists_mem_cons_iff]
          tauto
      intro f m
      rw [key, hnum]
      refine or_congr ?_ ?_
      · rw [Bool.not_eq_true', ← Bool.not_eq_true, hdofs]
        constructor
        · intro h r hr l hl c hc
          by_contra hcon
          have hco := hin hl hc (by simpa using hcon)
          refine h ⟨r, hr, (splitBar_join hne r).2 ⟨dcs.keyOf c, ?_, (hsplit c hco r).2 ⟨l, hl, hc⟩⟩⟩
          exact List.mem_map.2 ⟨_, hall c hco, rfl⟩
        · rintro h ⟨r, hr, hp⟩
          obtain ⟨q, hq, hrq⟩ := (splitBar_join hne r).1 hp
          obtain ⟨⟨q', c⟩, hqc, rfl⟩ := List.mem_map.1 hq
          obtain ⟨h1, h2⟩ := toPattern_item dcs order _ c hqc
          simp only at hrq
          rw [h1] at hrq
          obtain ⟨l, hl, hcl⟩ := (hsplit c h2 r).1 hrq
          have := h r hr l hl c hcl
          rw [hps c h2] at this
          cases this
      · constructor
        · rintro ⟨⟨q, c⟩, hq, hcl⟩
          obtain ⟨h1, h2⟩ := toPattern_item dcs order _ c hq
          rw [clearHigh_facet p f m (by omega) _ (hhigh c ((ho.2 c).1 h2)).1, hdofs] at hcl
          obtain ⟨⟨r, hr, hrq⟩, hm⟩ := hcl
          simp only at hrq
          rw [h1] at hrq
          obtain ⟨l, hl, hc⟩ := (hsplit c h2 r).1 hrq
          exact ⟨r, hr, l, hl, c, hc, hps c h2, hm⟩
        · rintro ⟨r, hr, l, hl, c, hc, hi, hm⟩
          have hco := hin hl hc hi
          refine ⟨_, hall c hco, ?_⟩
          rw [clearHigh_facet p f m (by omega) _ (hhigh c ((ho.2 c).1 hco)).1, hdofs]
          exact ⟨⟨r, hr, (hsplit c hco r).2 ⟨l, hl, hc⟩⟩, hm⟩

/-- **C72 depends on the numbering**: if the constants of all facets come first and the other modes
after them, then for two facets in a layer of order 0 (method of order 1) the constant of the second
facet is removed and the linear mode of the first is kept. -/
theorem C72_fails_lowest_first :
    let c : Cond := ⟨0, .pspongeLayer⟩
    let dcs : Conditions := ⟨[(['a'], [c])], [], 1⟩
    let S : FacetSpace 2 1 :=
      ⟨fun f m => if (m : ℕ) = 0 then f else 2 + f * 1 + (m - 1), fun _ => [['a']]⟩
    dcs.SetOrder .pspongeLayer [c] ∧ ∃ kept,
      reduceFacetwise S true 2 (fun _ => 0) (dcs.toPattern [c]) = .ok kept ∧
      kept (S.num 1 0) = false ∧ kept (S.num 0 1) = true := by
  intro c dcs S
  refine ⟨⟨by decide, fun x => ?_⟩, _, rfl, ?_, ?_⟩
  · have : dcs.assignedOf .pspongeLayer = [c] := by decide
    rw [this]
  · decide
  · decide

/-- C72, concrete instance: an order 3 method with layers of orders 2 and 0 in two of three
regions, facets inside and between the regions. -/
example :
    let c : Cond := ⟨0, .pspongeLayer⟩
    let d : Cond := ⟨1, .pspongeLayer⟩
    let dcs : Conditions := ⟨[(['a'], []), (['b'], [c]), (['c'], [d])], [], 2⟩
    let high : Cond → ℤ := fun x => if x = c then 2 else 0
    let S : FacetSpace 3 3 := ⟨fun f m => f * 4 + m, ![[['a']], [['a'], ['b']], [['b'], ['c']]]⟩
    dcs.regions.Nodup ∧ dcs.SetOrder .pspongeLayer [d, c] ∧
    (∀ x ∈ dcs.assignedOf .pspongeLayer, 0 ≤ high x ∧ high x ≤ 3) ∧
    (∀ x ∈ [d, c], ∀ y ∈ [d, c], dcs.keyOf y = dcs.keyOf x → y = x) ∧
    (∀ f m, S.num f m = f * (3 + 1) + m) := by
  intro c d dcs high S
  refine ⟨by decide, ⟨by decide, fun x => ?_⟩, by decide, by decide, fun _ _ => rfl⟩
  have : dcs.assignedOf .pspongeLayer = [c, d] := by decide
  rw [this]
  simp [or_comm]

/-! ## C73 -/

variable {E V : Type} [Fintype V]

/-- The function that the layers describe: the sum of the functions of the layers at the point. -/
def layerSum (elem : V → E) (region : E → Name) (function : Cond → V → ℝ)
    (layers : Dict Name Cond) (x : V) : ℝ :=
  (layers.map fun kv => if region (elem x) ∈ splitBar kv.1 then function kv.2 x else 0).sum

theorem sum_layers (w : V → ℝ) (elem : V → E) (region : E → Name) (function : Cond → V → ℝ)
    (layers : Dict Name Cond) (v : V → ℝ) :
    (layers.map fun kv => ∑ x, if region (elem x) ∈ splitBar kv.1
      then w x * (function kv.2 x * v x) else 0).sum
    = ∑ x, w x * (layerSum elem region function layers x * v x) := by
  induction layers with
  | nil => simp [layerSum]
  | cons a t ih =>
    rw [List.map_cons, List.sum_cons, ih, ← Finset.sum_add_distrib]
    refine Finset.sum_congr rfl fun x _ => ?_
    simp only [layerSum, List.map_cons, List.sum_cons]
    split_ifs <;> ring

/-- **C73** The function returned for sponge layers is the best approximation, in the mean square
over all quadrature points, of the sum of the functions of the layers; it is exactly this sum if the
sum belongs to the finite element space. -/
theorem C73_best (w : V → ℝ) (hw : ∀ x, 0 < w x) (elem : V → E) (region : E → Name)
    (W : Submodule ℝ (V → ℝ)) (function : Cond → V → ℝ) (layers : Dict Name Cond) (u : V → ℝ)
    (h : IsBufferFunction w elem region W function layers u) :
    (∀ v ∈ W, ∑ x, w x * (u x - layerSum elem region function layers x) ^ 2
      ≤ ∑ x, w x * (v x - layerSum elem region function layers x) ^ 2) ∧
    (layerSum elem region function layers ∈ W → u = layerSum elem region function layers) := by
  have hp : IsFacetProjection (n := 0) (V := V) (B := V) ⟨w, w, fun _ => 0, fun _ => none⟩ W
      (layerSum elem region function layers) u := by
    refine ⟨h.1, fun v hv => ?_⟩
    rw [← sum_layers]
    exact h.2 v hv
  obtain ⟨h1, h2⟩ := C70_facet _ hw W _ u hp
  exact ⟨h2, h1⟩

/-- With distinct region sets the grouping is the list of conditions with their patterns. -/
theorem toPattern_eq (dcs : Conditions) (order : List Cond) (hn : order.Nodup)
    (hk : ∀ c ∈ order, ∀ c' ∈ order, dcs.keyOf c' = dcs.keyOf c → c' = c) :
    dcs.toPattern order = order.map fun c => (dcs.keyOf c, c) := by
  induction order using List.reverseRecOn with
  | nil => rfl
  | append_singleton t c ih =>
    have hn' := List.nodup_append.1 hn
    have ih := ih hn'.1 fun a ha b hb => hk a (by simp [ha]) b (by simp [hb])
    rw [Conditions.toPattern, List.foldl_append, ← Conditions.toPattern, ih, List.foldl_cons,
      List.foldl_nil, List.map_append, List.map_singleton]
    show Dict.set _ (dcs.keyOf c) c = _
    unfold Dict.set
    rw [if_neg]
    intro h
    rw [Dict.has_iff] at h
    simp only [Dict.keys, List.map_map, List.mem_map, Function.comp_apply] at h
    obtain ⟨a, ha, he⟩ := h
    have := hk c (by simp) a (by simp [ha]) he
    subst this
    exact hn'.2.2 a ha a (by simp) rfl

/-- **C73** In a region with exactly one layer the sum is the function of that layer, in a region
without layers it is zero; in every iteration order. -/
theorem C73_layers (dcs : Conditions) (hC : dcs.regions.Nodup)
    (hbar : ∀ r ∈ dcs.regions, '|' ∉ r) {k : CondClass} {order : List Cond}
    (ho : dcs.SetOrder k order)
    (hk : ∀ c ∈ order, ∀ c' ∈ order, dcs.keyOf c' = dcs.keyOf c → c' = c)
    (elem : V → E) (region : E → Name) (function : Cond → V → ℝ) (x : V) (l : List Cond)
    (hl : dcs.data.get? (region (elem x)) = some l) :
    ((∀ c ∈ l, c.isA k = false) →
      layerSum elem region function (dcs.toPattern order) x = 0) ∧
    (∀ c ∈ l, c.isA k = true → (∀ c' ∈ l, c'.isA k = true → c' = c) →
      layerSum elem region function (dcs.toPattern order) x = function c x) := by
  have hsub : ∀ c, ∀ r ∈ dcs.regionsOf c, '|' ∉ r := by
    intro c r hr
    obtain ⟨l, hl, -⟩ := (regionsOf_mem dcs hC c r).1 hr
    exact hbar r (mem_regions_iff.2 ⟨l, hl⟩)
  have hsplit : ∀ c ∈ order, (region (elem x) ∈ splitBar (dcs.keyOf c) ↔ c ∈ l) := by
    intro c hc
    rw [show splitBar (dcs.keyOf c) = dcs.regionsOf c from
      split_join (regionsOf_ne_nil dcs ((ho.2 c).1 hc)) (hsub c), regionsOf_mem dcs hC, hl]
    simp
  have hps : ∀ c ∈ order, c.isA k = true := by
    intro c hc
    have := (ho.2 c).1 hc
    simp only [Conditions.assignedOf, List.mem_filter] at this
    exact this.2
  have hin : ∀ {c}, c ∈ l → c.isA k = true → c ∈ order := by
    intro c hc hi
    rw [ho.2]
    simp only [Conditions.assignedOf, List.mem_filter, List.mem_flatMap, Prod.exists]
    exact ⟨⟨_, l, Dict.mem_of_get? hl, hc⟩, hi⟩
  have e : layerSum elem region function (dcs.toPattern order) x
      = ∑ c ∈ order.toFinset, if c ∈ l then function c x else 0 := by
    rw [layerSum, toPattern_eq dcs order ho.1 hk, List.map_map, List.sum_toFinset _ ho.1]
    congr 1
    refine List.map_congr_left fun c hc => ?_
    simp only [Function.comp_apply, hsplit c hc]
  constructor
  · intro h
    rw [e]
    refine Finset.sum_eq_zero fun c hc => if_neg fun hcl => ?_
    have := h c hcl
    rw [hps c (List.mem_toFinset.1 hc)] at this
    cases this
  · intro c hc hi hu
    rw [e, Finset.sum_eq_single c, if_pos hc]
    · intro b hb hne
      exact if_neg fun hbl => hne (hu b hbl (hps b (List.mem_toFinset.1 hb)))
    · intro h
      exact absurd (List.mem_toFinset.2 (hin hc hi)) h

theorem le_foldl_max (l : List ℤ) (o : ℤ) (h : ∀ x ∈ l, x = o) : l.foldl max o = o := by
  induction l with
  | nil => rfl
  | cons a t ih =>
    rw [List.foldl_cons, h a (by simp), max_self]
    exact ih fun x hx => h x (by simp [hx])

/-- **C73** The space of this function: without sponge layers `ValueError`; otherwise it lives on
the elements of the layers, with the order of the layer if there is only one. -/
theorem C73_space {E : Type} (dcs : Conditions) (hC : dcs.regions.Nodup)
    (hbar : ∀ r ∈ dcs.regions, '|' ∉ r) {k : CondClass} {order : List Cond}
    (ho : dcs.SetOrder k order)
    (hk : ∀ c ∈ order, ∀ c' ∈ order, dcs.keyOf c' = dcs.keyOf c → c' = c)
    (ord : Cond → ℤ) (region : E → Name) :
    (order = [] → spongeSpace ord region (dcs.toPattern order) = .error .valueError) ∧
    (order ≠ [] → ∃ o act, spongeSpace ord region (dcs.toPattern order) = .ok (o, act) ∧
      ∀ e l, dcs.data.get? (region e) = some l →
        (act e = true ↔ ∃ c ∈ l, c.isA k = true) ∧
        (∀ c ∈ l, c.isA k = true → (∀ c' ∈ l, c'.isA k = true → c' = c) → o e = ord c)) := by
  constructor
  · rintro rfl
    rfl
  intro hne
  have hsub : ∀ c, ∀ r ∈ dcs.regionsOf c, '|' ∉ r := by
    intro c r hr
    obtain ⟨l, hl, -⟩ := (regionsOf_mem dcs hC c r).1 hr
    exact hbar r (mem_regions_iff.2 ⟨l, hl⟩)
  have hps : ∀ c ∈ order, c.isA k = true := by
    intro c hc
    have := (ho.2 c).1 hc
    simp only [Conditions.assignedOf, List.mem_filter] at this
    exact this.2
  have hp := toPattern_eq dcs order ho.1 hk
  obtain ⟨c0, t, rfl⟩ := List.exists_cons_of_ne_nil hne
  have hpm : (dcs.toPattern (c0 :: t)).map (fun kv => ord kv.2) = ord c0 :: t.map ord := by
    rw [hp]
    simp [Function.comp_def]
  rw [spongeSpace, hpm]
  refine ⟨_, _, rfl, fun e l hl => ?_⟩
  have hin : ∀ {c}, c ∈ l → c.isA k = true → c ∈ c0 :: t := by
    intro c hc hi
    rw [ho.2]
    simp only [Conditions.assignedOf, List.mem_filter, List.mem_flatMap, Prod.exists]
    exact ⟨⟨_, l, Dict.mem_of_get? hl, hc⟩, hi⟩
  have hsplit : ∀ c ∈ c0 :: t, (region e ∈ splitBar (dcs.keyOf c) ↔ c ∈ l) := by
    intro c hc
    rw [show splitBar (dcs.keyOf c) = dcs.regionsOf c from
      split_join (regionsOf_ne_nil dcs ((ho.2 c).1 hc)) (hsub c), regionsOf_mem dcs hC, hl]
    simp
  constructor
  · rw [decide_eq_true_iff, splitBar_join (by rw [hp]; simp [Dict.keys])]
    constructor
    · rintro ⟨q, hq, hr⟩
      rw [hp] at hq
      simp only [Dict.keys, List.map_map, List.mem_map, Function.comp_apply] at hq
      obtain ⟨c, hc, rfl⟩ := hq
      exact ⟨c, (hsplit c hc).1 hr, hps c hc⟩
    · rintro ⟨c, hc, hi⟩
      refine ⟨dcs.keyOf c, ?_, (hsplit c (hin hc hi)).2 hc⟩
      rw [hp]
      simp only [Dict.keys, List.map_map, List.mem_map, Function.comp_apply]
      exact ⟨c, hin hc hi, rfl⟩
  · intro c hc hi hu
    split_ifs with hcon
    · have hall : ∀ x ∈ t.map ord, x = ord c0 := by
        simpa using hcon
      rw [le_foldl_max _ _ hall]
      rcases List.mem_cons.1 (hin hc hi) with rfl | h
      · rfl
      · exact (hall _ (List.mem_map_of_mem h)).symm
    · rw [orders_materialCF]
      obtain ⟨-, h2⟩ := materialCF_grouping k dcs hC hbar ho ord hl
      obtain ⟨c', hc', hi', he⟩ := h2 ⟨c, hc, hi⟩
      rw [he, hu c' hc' hi']
      rfl

/-- C73, concrete instance: two layers of different orders on two of three regions. -/
example :
    let c : Cond := ⟨0, .spongeLayer⟩
    let d : Cond := ⟨1, .spongeLayer⟩
    let dcs : Conditions := ⟨[(['a'], []), (['b'], [c]), (['c'], [d])], [], 2⟩
    dcs.regions.Nodup ∧ dcs.SetOrder .spongeLayer [d, c] ∧
    (∀ x ∈ [d, c], ∀ y ∈ [d, c], dcs.keyOf y = dcs.keyOf x → y = x) ∧
    ∃ o act, spongeSpace (fun x => if x = c then 2 else 3) (fun r : Name => r)
        (dcs.toPattern [d, c]) = .ok (o, act) ∧ o ['b'] = 2 ∧ o ['c'] = 3 ∧ act ['a'] = false := by
  intro c d dcs
  refine ⟨by decide, ⟨by decide, fun x => ?_⟩, by decide, _, _, rfl, by decide, by decide,
    by decide⟩
  have : dcs.assignedOf .spongeLayer = [c, d] := by decide
  rw [this]
  simp [or_comm]

/-- C73, concrete instance: two points in a layer and one outside, all functions admitted. -/
example :
    let region : Fin 3 → Name := ![['a'], ['a'], ['b']]
    let f : Cond → Fin 3 → ℝ := fun _ x => x + 1
    let L : Dict Name Cond := [(['a'], ⟨0, .spongeLayer⟩)]
    IsBufferFunction (fun _ => 1) id region (⊤ : Submodule ℝ (Fin 3 → ℝ)) f L ![1, 2, 0] := by
  intro region f L
  refine ⟨trivial, fun v _ => ?_⟩
  simp [L, f, region, Fin.sum_univ_three, splitBar]
  norm_num

end Dream
