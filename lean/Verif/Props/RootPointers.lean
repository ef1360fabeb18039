import Verif.Model.RootPointers
import Verif.Lemmas.Config

/-!
# C18: all sub-configurations refer to the solver they are attached to
-/

namespace Dream.Ptr

/-! ## Specification -/

/-- `u` is an option of `p`, of an option of `p`, … or `p` itself. -/
inductive Reach (h : Heap) : Ref → Ref → Prop
  | refl (p : Ref) : Reach h p p
  | step (p q u : Ref) (k : String) (hk : (k, q) ∈ (h.node p).kids) (hr : Reach h q u) : Reach h p u

/-- `v` is not a sub-configuration of any object. -/
def Free (h : Heap) (v : Ref) : Prop := ∀ p k, (k, v) ∉ (h.node p).kids

/-- `v` is a sensor of some stream. -/
def IsSensor (h : Heap) (v : Ref) : Prop := ∃ p, v ∈ (h.node p).sensors

/-- Any sequence of operations on configurations in which an instance is only attached if it is not
part of another configuration and the owner is not part of it. `s` is a configuration which is never
attached: a solver. -/
inductive Steps (n : ℕ) (s : Ref) (h : Heap) : Heap → Prop
  | refl : Steps n s h h
  | new (h1 h2 : Heap) (sh : Shape) (mesh : Option ℕ) (v : Ref) (hs : Steps n s h h1)
      (e : construct n sh none mesh h1 = .ok (v, h2)) : Steps n s h h2
  | attach (h1 h2 : Heap) (p : Ref) (k : String) (v : Ref) (hs : Steps n s h h1)
      (hp : p < h1.next) (hv : v < h1.next) (hf : Free h1 v) (hr : ¬ Reach h1 v p)
      (hvs : ¬ IsSensor h1 v) (hps : ¬ IsSensor h1 p) (hsv : v ≠ s)
      (e : attach n h1 p k v = .ok h2) : Steps n s h h2
  | select (h1 h2 : Heap) (p : Ref) (k : String) (sh : Shape) (hs : Steps n s h h1)
      (hp : p < h1.next) (hps : ¬ IsSensor h1 p)
      (e : select n h1 p k sh = .ok h2) : Steps n s h h2
  | addSensor (h1 : Heap) (p : Ref) (hs : Steps n s h h1) (hp : p < h1.next)
      (hps : ¬ IsSensor h1 p) : Steps n s h (addSensor h1 p).2
  | openSensors (h1 : Heap) (p : Ref) (hs : Steps n s h h1) : Steps n s h (openSensors h1 p)

/-! ## Invariant -/

/-- Sub-configurations share root and mesh with their owner, and have one owner. -/
structure Inv (h : Heap) : Prop where
  bound : ∀ p k c, (k, c) ∈ (h.node p).kids → p < h.next ∧ c < h.next
  edge : ∀ p k c, (k, c) ∈ (h.node p).kids →
    (h.node c).root = (h.node p).root ∧ (h.node c).mesh = (h.node p).mesh
  uniq : ∀ p p' k k' c, (k, c) ∈ (h.node p).kids → (k', c) ∈ (h.node p').kids → p = p'
  sens : ∀ p v, v ∈ (h.node p).sensors → p < h.next ∧ v < h.next ∧ Free h v ∧
    (h.node v).kids = [] ∧ (h.node v).sensors = []

theorem inv_empty : Inv Heap.empty :=
  ⟨by simp [Heap.empty], by simp [Heap.empty], by simp [Heap.empty], by simp [Heap.empty]⟩

theorem point_kids (h : Heap) (v r : Ref) (m : Option ℕ) (u : Ref) :
    ((h.point v r m).node u).kids = (h.node u).kids ∧
      ((h.point v r m).node u).sensors = (h.node u).sensors := by
  unfold Heap.point
  by_cases hu : u = v
  · subst hu; simp
  · simp [Function.update_of_ne hu]

theorem point_self (h : Heap) (v r : Ref) (m : Option ℕ) :
    ((h.point v r m).node v).root = r ∧ ((h.point v r m).node v).mesh = m := by
  simp [Heap.point]

theorem point_ne (h : Heap) {v u : Ref} (r : Ref) (m : Option ℕ) (hu : u ≠ v) :
    (h.point v r m).node u = h.node u := by
  simp [Heap.point, Function.update_of_ne hu]

theorem reach_congr {h h' : Heap} (hk : ∀ u, (h'.node u).kids = (h.node u).kids) {p u : Ref}
    (hr : Reach h p u) : Reach h' p u := by
  induction hr with
  | refl p => exact .refl p
  | step p q u k hk' _ ih => exact .step p q u k (by rw [hk]; exact hk') ih

theorem reach_trans {h : Heap} {p q u : Ref} (h1 : Reach h p q) (h2 : Reach h q u) :
    Reach h p u := by
  induction h1 with
  | refl p => exact h2
  | step p q' u' k hk _ ih => exact .step p q' u k hk (ih h2)

/-- What the recursive update does: it redirects what can be reached and nothing else. -/
structure Synced (h h' : Heap) (v r : Ref) (m : Option ℕ) : Prop where
  next : h'.next = h.next
  kids : ∀ u, (h'.node u).kids = (h.node u).kids ∧ (h'.node u).sensors = (h.node u).sensors
  inside : ∀ u, Reach h v u → (h'.node u).root = r ∧ (h'.node u).mesh = m
  outside : ∀ u, ¬ Reach h v u → h'.node u = h.node u

theorem sync_spec (n : ℕ) (h h' : Heap) (v r : Ref) (m : Option ℕ)
    (hr : (h.node v).root = r ∧ (h.node v).mesh = m) (hs : sync n h v = .ok h') :
    Synced h h' v r m := by
  induction n generalizing h h' v with
  | zero => cases hs
  | succ n ih =>
    simp only [sync] at hs
    -- the loop over a part of the options
    have loop : ∀ (l : Dict String Ref) (g g' : Heap), l.foldlM (syncStep (sync n) v) g = .ok g' →
        (g.node v).root = r ∧ (g.node v).mesh = m →
        g'.next = g.next ∧
        (∀ u, (g'.node u).kids = (g.node u).kids ∧ (g'.node u).sensors = (g.node u).sensors) ∧
        (∀ u, ((g'.node u).root = r ∧ (g'.node u).mesh = m) ∨ g'.node u = g.node u) ∧
        (∀ e ∈ l, ∀ u, Reach g e.2 u → (g'.node u).root = r ∧ (g'.node u).mesh = m) ∧
        (∀ u, (∀ e ∈ l, ¬ Reach g e.2 u) → g'.node u = g.node u) := by
      intro l
      induction l with
      | nil =>
        intro g g' h1 _
        cases h1
        exact ⟨rfl, fun _ => ⟨rfl, rfl⟩, fun _ => .inr rfl, by simp, fun _ _ => rfl⟩
      | cons e l ihl =>
        intro g g' h1 h2
        rw [List.foldlM_cons] at h1
        cases hst : syncStep (sync n) v g e with
        | error x => rw [hst] at h1; cases h1
        | ok g1 =>
          rw [hst] at h1
          simp only [bind, Except.bind] at h1
          unfold syncStep at hst
          rw [h2.1, h2.2] at hst
          have hS := ih _ _ _ (point_self g e.2 r m) hst
          have kk : ∀ u, (g1.node u).kids = (g.node u).kids ∧
              (g1.node u).sensors = (g.node u).sensors := fun u =>
            ⟨(hS.kids u).1.trans (point_kids g e.2 r m u).1,
              (hS.kids u).2.trans (point_kids g e.2 r m u).2⟩
          have toP : ∀ {p u}, Reach g p u → Reach (g.point e.2 r m) p u := fun hr =>
            reach_congr (fun u => (point_kids g e.2 r m u).1) hr
          have fromP : ∀ {p u}, Reach (g.point e.2 r m) p u → Reach g p u := fun hr =>
            reach_congr (fun u => (point_kids g e.2 r m u).1.symm) hr
          have in1 : ∀ u, Reach g e.2 u → (g1.node u).root = r ∧ (g1.node u).mesh = m :=
            fun u hu => hS.inside u (toP hu)
          have out1 : ∀ u, ¬ Reach g e.2 u → g1.node u = g.node u := by
            intro u hu
            rw [hS.outside u (fun h => hu (fromP h))]
            refine point_ne g r m ?_
            rintro rfl
            exact hu (.refl _)
          have hv1 : (g1.node v).root = r ∧ (g1.node v).mesh = m := by
            by_cases hrv : Reach g e.2 v
            · exact in1 v hrv
            · rw [out1 v hrv]; exact h2
          obtain ⟨a1, a2, a3, a4, a5⟩ := ihl g1 g' h1 hv1
          have toQ : ∀ {p u}, Reach g p u → Reach g1 p u := fun hr =>
            reach_congr (fun u => (kk u).1) hr
          have fromQ : ∀ {p u}, Reach g1 p u → Reach g p u := fun hr =>
            reach_congr (fun u => (kk u).1.symm) hr
          refine ⟨a1.trans hS.next, fun u => ⟨(a2 u).1.trans (kk u).1, (a2 u).2.trans (kk u).2⟩,
            fun u => ?_, fun e' he' u hu => ?_, fun u hu => ?_⟩
          · rcases a3 u with h | h
            · exact .inl h
            · by_cases hru : Reach g e.2 u
              · left; rw [h]; exact in1 u hru
              · right; rw [h, out1 u hru]
          · rcases List.mem_cons.1 he' with rfl | he'
            · rcases a3 u with h | h
              · exact h
              · rw [h]; exact in1 u hu
            · exact a4 e' he' u (toQ hu)
          · rw [a5 u (fun e' he' h => hu e' (by simp [he']) (fromQ h)), out1 u (hu e (by simp))]
    obtain ⟨b1, b2, b3, b4, b5⟩ := loop _ h h' hs hr
    refine ⟨b1, b2, ?_, ?_⟩
    · intro u hu
      cases hu with
      | refl =>
        rcases b3 v with h | h
        · exact h
        · rw [h]; exact hr
      | step _ q _ k hk hq => exact b4 (k, q) hk u hq
    · intro u hu
      refine b5 u fun e he hr' => hu ?_
      exact .step v e.2 u e.1 he hr'

theorem mem_set {d : Dict String Ref} {k k' : String} {v c : Ref} (h : (k', c) ∈ d.set k v) :
    (k' = k ∧ c = v) ∨ (k', c) ∈ d := by
  by_cases hm : k ∈ d.keys
  · rw [Dict.set_of_mem hm] at h
    obtain ⟨x, hx, hxe⟩ := List.mem_map.1 h
    split_ifs at hxe
    · cases hxe; exact .inl ⟨rfl, rfl⟩
    · rw [← hxe]; exact .inr hx
  · rw [Dict.set_of_not_mem hm] at h
    rcases List.mem_append.1 h with h | h
    · exact .inr h
    · simp at h; exact .inl h

/-- Storing an unattached object which has the references of its new owner. -/
theorem inv_store {h : Heap} (hI : Inv h) {p : Ref} (k : String) {v : Ref} (hp : p < h.next)
    (hv : v < h.next) (hf : Free h v) (hvs : ¬ IsSensor h v) (hps : ¬ IsSensor h p)
    (he : (h.node v).root = (h.node p).root ∧ (h.node v).mesh = (h.node p).mesh) :
    Inv (h.store p k v) := by
  have rm : ∀ u, ((h.store p k v).node u).root = (h.node u).root ∧
      ((h.store p k v).node u).mesh = (h.node u).mesh ∧
      ((h.store p k v).node u).sensors = (h.node u).sensors := by
    intro u
    unfold Heap.store
    by_cases hu : u = p
    · subst hu; simp
    · simp [Function.update_of_ne hu]
  have ks : ∀ u k' c, (k', c) ∈ ((h.store p k v).node u).kids →
      (u = p ∧ c = v) ∨ (k', c) ∈ (h.node u).kids := by
    intro u k' c hm
    unfold Heap.store at hm
    by_cases hu : u = p
    · subst hu
      simp only [Function.update_self] at hm
      rcases mem_set hm with ⟨_, rfl⟩ | hm
      · exact .inl ⟨rfl, rfl⟩
      · exact .inr hm
    · simp only [Function.update_of_ne hu] at hm
      exact .inr hm
  refine ⟨?_, ?_, ?_, ?_⟩
  · intro q k' c hm
    rcases ks q k' c hm with ⟨rfl, rfl⟩ | hm
    · exact ⟨hp, hv⟩
    · exact hI.bound q k' c hm
  · intro q k' c hm
    rw [(rm c).1, (rm c).2.1, (rm q).1, (rm q).2.1]
    rcases ks q k' c hm with ⟨rfl, rfl⟩ | hm
    · exact he
    · exact hI.edge q k' c hm
  · intro q q' k1 k2 c h1 h2
    rcases ks q k1 c h1 with ⟨e1, e1'⟩ | g1 <;> rcases ks q' k2 c h2 with ⟨e2, e2'⟩ | g2
    · rw [e1, e2]
    · rw [e1'] at g2; exact absurd g2 (hf q' k2)
    · rw [e2'] at g1; exact absurd g1 (hf q k1)
    · exact hI.uniq q q' k1 k2 c g1 g2
  · intro q w hw
    rw [(rm q).2.2] at hw
    obtain ⟨a1, a2, a3, a4, a5⟩ := hI.sens q w hw
    refine ⟨a1, a2, ?_, ?_, ?_⟩
    · intro q' k' hm
      rcases ks q' k' w hm with ⟨_, rfl⟩ | hm
      · exact hvs ⟨q, hw⟩
      · exact a3 q' k' hm
    · have hwp : w ≠ p := by rintro rfl; exact hps ⟨q, hw⟩
      unfold Heap.store
      simp only [Function.update_of_ne hwp]
      exact a4
    · rw [(rm w).2.2]; exact a5

/-- Reaching something from outside means passing through the entry. -/
theorem reach_parent {h : Heap} (hI : Inv h) {v u q : Ref} {k : String} (hf : Free h v)
    (hr : Reach h v u) (hq : (k, u) ∈ (h.node q).kids) : Reach h v q := by
  have last : ∀ {a b : Ref}, Reach h a b → b = a ∨ ∃ c k, Reach h a c ∧ (k, b) ∈ (h.node c).kids := by
    intro a b hab
    induction hab with
    | refl p => exact .inl rfl
    | step p q u k hk _ ih =>
      right
      rcases ih with rfl | ⟨c, k', h1, h2⟩
      · exact ⟨p, k, .refl p, hk⟩
      · exact ⟨c, k', .step p q c k hk h1, h2⟩
  rcases last hr with rfl | ⟨c, k', h1, h2⟩
  · exact absurd hq (hf q k)
  · rw [hI.uniq q c k k' u hq h2]
    exact h1

theorem reach_lt {h : Heap} (hI : Inv h) {v u : Ref} (hr : Reach h v u) (hv : v < h.next) :
    u < h.next := by
  induction hr with
  | refl p => exact hv
  | step p q u k hk _ ih => exact ih (hI.bound p k q hk).2

/-- Redirecting a whole tree that hangs nowhere. -/
theorem inv_synced {h h' : Heap} (hI : Inv h) {v r : Ref} {m : Option ℕ} (hf : Free h v)
    (hS : Synced h h' v r m) : Inv h' := by
  refine ⟨?_, ?_, ?_, ?_⟩
  · intro p k c hm
    rw [(hS.kids p).1] at hm
    rw [hS.next]
    exact hI.bound p k c hm
  · intro p k c hm
    rw [(hS.kids p).1] at hm
    by_cases hp : Reach h v p
    · have hc : Reach h v c := reach_trans hp (.step p c c k hm (.refl c))
      rw [(hS.inside p hp).1, (hS.inside p hp).2, (hS.inside c hc).1, (hS.inside c hc).2]
      exact ⟨rfl, rfl⟩
    · have hc : ¬ Reach h v c := fun hc => hp (reach_parent hI hf hc hm)
      rw [hS.outside p hp, hS.outside c hc]
      exact hI.edge p k c hm
  · intro p p' k k' c h1 h2
    rw [(hS.kids p).1] at h1
    rw [(hS.kids p').1] at h2
    exact hI.uniq p p' k k' c h1 h2
  · intro p w hw
    rw [(hS.kids p).2] at hw
    obtain ⟨a1, a2, a3, a4, a5⟩ := hI.sens p w hw
    refine ⟨by rw [hS.next]; exact a1, by rw [hS.next]; exact a2, ?_, ?_, ?_⟩
    · intro q k hm
      rw [(hS.kids q).1] at hm
      exact a3 q k hm
    · rw [(hS.kids w).1]; exact a4
    · rw [(hS.kids w).2]; exact a5

/-- What `attach` does. -/
structure Attached (h h' : Heap) (p : Ref) (k : String) (v : Ref) : Prop where
  inv : Inv h'
  next : h'.next = h.next
  kids : ∀ u, (h'.node u).kids = if u = p then (h.node p).kids.set k v else (h.node u).kids
  sensors : ∀ u, (h'.node u).sensors = (h.node u).sensors
  inside : ∀ u, Reach h v u → (h'.node u).root = (h.node p).root ∧
    (h'.node u).mesh = (h.node p).mesh
  outside : ∀ u, ¬ Reach h v u → (h'.node u).root = (h.node u).root ∧
    (h'.node u).mesh = (h.node u).mesh

theorem synced_point {h g : Heap} {v r : Ref} {m : Option ℕ}
    (hS : Synced (h.point v r m) g v r m) : Synced h g v r m := by
  refine ⟨hS.next, fun u => ⟨(hS.kids u).1.trans (point_kids h v r m u).1,
    (hS.kids u).2.trans (point_kids h v r m u).2⟩, fun u hu => hS.inside u
      (reach_congr (fun u => (point_kids h v r m u).1) hu), fun u hu => ?_⟩
  rw [hS.outside u fun h' => hu (reach_congr (fun u => (point_kids h v r m u).1.symm) h')]
  refine point_ne h r m ?_
  rintro rfl
  exact hu (.refl _)

theorem attach_spec {n : ℕ} {h h' : Heap} (hI : Inv h) {p : Ref} {k : String} {v : Ref}
    (hp : p < h.next) (hv : v < h.next) (hf : Free h v) (hr : ¬ Reach h v p)
    (hvs : ¬ IsSensor h v) (hps : ¬ IsSensor h p) (e : attach n h p k v = .ok h') :
    Attached h h' p k v := by
  unfold attach at e
  cases hs : sync n (h.point v (h.node p).root (h.node p).mesh) v with
  | error x => rw [hs] at e; cases e
  | ok g =>
    rw [hs] at e
    cases e
    have hS := synced_point (sync_spec n _ g v _ _ (point_self h v _ _) hs)
    have hIg := inv_synced hI hf hS
    have hgp : g.node p = h.node p := hS.outside p hr
    have hfg : Free g v := fun q k' hm => by rw [(hS.kids q).1] at hm; exact hf q k' hm
    have hsg : ∀ w, IsSensor g w → IsSensor h w := fun w ⟨q, hq⟩ =>
      ⟨q, by rw [(hS.kids q).2] at hq; exact hq⟩
    have hst : ∀ u, ((g.store p k v).node u).root = (g.node u).root ∧
        ((g.store p k v).node u).mesh = (g.node u).mesh ∧
        ((g.store p k v).node u).sensors = (g.node u).sensors := by
      intro u
      unfold Heap.store
      by_cases hu : u = p
      · subst hu; simp
      · simp [Function.update_of_ne hu]
    refine ⟨?_, hS.next, ?_, ?_, ?_, ?_⟩
    · refine inv_store hIg k (by rw [hS.next]; exact hp) (by rw [hS.next]; exact hv) hfg
        (fun h => hvs (hsg _ h)) (fun h => hps (hsg _ h)) ?_
      rw [hgp]
      exact hS.inside v (.refl v)
    · intro u
      unfold Heap.store
      by_cases hu : u = p
      · subst hu; simp [hgp]
      · simp [Function.update_of_ne hu, hu, (hS.kids u).1]
    · intro u
      rw [(hst u).2.2, (hS.kids u).2]
    · intro u hu
      rw [(hst u).1, (hst u).2.1]
      exact hS.inside u hu
    · intro u hu
      rw [(hst u).1, (hst u).2.1, hS.outside u hu]
      exact ⟨rfl, rfl⟩

/-- What a constructor does: a tree of new objects appears, the rest stays as it is. -/
structure Built (h h' : Heap) (v : Ref) (r : Ref) (m : Option ℕ) : Prop where
  inv : Inv h'
  lt : v < h'.next
  le : h.next ≤ h'.next
  old : ∀ u < h.next, h'.node u = h.node u
  closed : ∀ p k c, (k, c) ∈ (h'.node p).kids → h.next ≤ p → h.next ≤ c
  free : Free h' v
  sensors : ∀ u, h.next ≤ u → (h'.node u).sensors = []
  root : (h'.node v).root = r
  mesh : (h'.node v).mesh = m

theorem reach_closed {h : Heap} {b : ℕ} (hc : ∀ p k c, (k, c) ∈ (h.node p).kids → b ≤ p → b ≤ c)
    {v u : Ref} (hr : Reach h v u) (hv : b ≤ v) : b ≤ u := by
  induction hr with
  | refl p => exact hv
  | step p q u k hk _ ih => exact ih (hc p k q hk hv)

theorem free_alloc {h : Heap} (hI : Inv h) {v : Ref} (hv : h.next ≤ v) : Free h v := fun p k hm =>
  absurd (hI.bound p k v hm).2 (not_lt.2 hv)

theorem not_sensor_of_ge {h : Heap} (hI : Inv h) {v : Ref} (hv : h.next ≤ v) : ¬ IsSensor h v :=
  fun ⟨p, hp⟩ => absurd (hI.sens p v hp).2.1 (not_lt.2 hv)

theorem built_alloc {h : Heap} (hI : Inv h) (root : Option Ref) (mesh : Option ℕ) :
    Built h (alloc h root mesh) h.next (root.getD h.next) mesh := by
  have nd : ∀ u, u ≠ h.next → (alloc h root mesh).node u = h.node u := fun u hu => by
    simp [alloc, Function.update_of_ne hu]
  have nn : (alloc h root mesh).node h.next = ⟨root.getD h.next, mesh, [], []⟩ := by simp [alloc]
  have kid : ∀ p k c, (k, c) ∈ ((alloc h root mesh).node p).kids → (k, c) ∈ (h.node p).kids := by
    intro p k c hm
    by_cases hp : p = h.next
    · subst hp; rw [nn] at hm; simp at hm
    · rwa [nd p hp] at hm
  have sen : ∀ p v, v ∈ ((alloc h root mesh).node p).sensors → v ∈ (h.node p).sensors := by
    intro p k hm
    by_cases hp : p = h.next
    · subst hp; rw [nn] at hm; simp at hm
    · rwa [nd p hp] at hm
  refine ⟨⟨?_, ?_, ?_, ?_⟩, Nat.lt_succ_self _, Nat.le_succ _, ?_, ?_, ?_, ?_, ?_, ?_⟩
  · intro p k c hm
    obtain ⟨h1, h2⟩ := hI.bound p k c (kid p k c hm)
    exact ⟨Nat.lt_succ_of_lt h1, Nat.lt_succ_of_lt h2⟩
  · intro p k c hm
    have hm' := kid p k c hm
    obtain ⟨h1, h2⟩ := hI.bound p k c hm'
    rw [nd p (Nat.ne_of_lt h1), nd c (Nat.ne_of_lt h2)]
    exact hI.edge p k c hm'
  · intro p p' k k' c h1 h2
    exact hI.uniq p p' k k' c (kid _ _ _ h1) (kid _ _ _ h2)
  · intro p v hv
    obtain ⟨a1, a2, a3, a4, a5⟩ := hI.sens p v (sen p v hv)
    refine ⟨Nat.lt_succ_of_lt a1, Nat.lt_succ_of_lt a2, fun q k hm => a3 q k (kid _ _ _ hm), ?_, ?_⟩
    · rw [nd v (Nat.ne_of_lt a2)]; exact a4
    · rw [nd v (Nat.ne_of_lt a2)]; exact a5
  · intro u hu; exact nd u (Nat.ne_of_lt hu)
  · intro p k c hm hp
    exact absurd (hI.bound p k c (kid p k c hm)).1 (not_lt.2 hp)
  · intro p k hm
    exact absurd (hI.bound p k _ (kid p k _ hm)).2 (lt_irrefl _)
  · intro u hu
    by_cases hp : u = h.next
    · subst hp; rw [nn]
    · rw [nd u hp]
      by_contra hne
      obtain ⟨w, hw⟩ := List.exists_mem_of_ne_nil _ hne
      exact absurd (hI.sens u w hw).1 (not_lt.2 hu)
  · rw [nn]
  · rw [nn]

mutual
theorem construct_spec (n : ℕ) (sh : Shape) (root : Option Ref) (mesh : Option ℕ) (h h' : Heap)
    (v : Ref) (hI : Inv h) (e : construct n sh root mesh h = .ok (v, h')) :
    v = h.next ∧ Built h h' v (root.getD v) mesh := by
  match sh with
  | .node options =>
    simp only [construct] at e
    cases hr : resetAll n options h.next (alloc h root mesh) with
    | error x => rw [hr] at e; cases e
    | ok g =>
      rw [hr] at e
      cases e
      exact ⟨rfl, resetAll_spec n options h _ _ _ _ _ (built_alloc hI root mesh) hI (le_refl _) hr⟩

theorem resetAll_spec (n : ℕ) (options : List (String × Shape)) (h g g' : Heap) (v r : Ref)
    (m : Option ℕ) (hB : Built h g v r m) (hI : Inv h) (hv : h.next ≤ v)
    (e : resetAll n options v g = .ok g') : Built h g' v r m := by
  match options with
  | [] => cases e; exact hB
  | (k, sh) :: rest =>
    simp only [resetAll] at e
    cases hc : construct n sh (some (g.node v).root) (g.node v).mesh g with
    | error x => rw [hc] at e; cases e
    | ok res =>
      obtain ⟨w, g1⟩ := res
      rw [hc] at e
      simp only at e
      obtain ⟨hw, hB1⟩ := construct_spec n sh _ _ g g1 w hB.inv hc
      cases ha : attach n g1 v k w with
      | error x => rw [ha] at e; cases e
      | ok g2 =>
        rw [ha] at e
        simp only at e
        have hwg : g.next ≤ w := hw ▸ le_refl _
        have hnr : ∀ u, u < g.next → ¬ Reach g1 w u := fun u hu hr =>
          absurd (reach_closed hB1.closed hr hwg) (not_le.2 hu)
        have hsens : ∀ u, h.next ≤ u → ¬ IsSensor g1 u := by
          rintro u hu ⟨q, hq⟩
          by_cases hqg : q < g.next
          · rw [hB1.old q hqg] at hq
            by_cases hqh : q < h.next
            · rw [hB.old q hqh] at hq
              exact absurd (hI.sens q u hq).2.1 (not_lt.2 hu)
            · rw [hB.sensors q (not_lt.1 hqh)] at hq
              simp at hq
          · rw [hB1.sensors q (not_lt.1 hqg)] at hq
            simp at hq
        have hA := attach_spec hB1.inv (lt_of_lt_of_le hB.lt hB1.le) hB1.lt hB1.free
          (hnr v hB.lt) (hsens w (le_trans hB.le hwg)) (hsens v hv) ha
        refine resetAll_spec n rest h g2 g' v r m ?_ hI hv e
        have hvr : (g1.node v).root = r ∧ (g1.node v).mesh = m := by
          rw [hB1.old v hB.lt]; exact ⟨hB.root, hB.mesh⟩
        refine ⟨hA.inv, ?_, ?_, ?_, ?_, ?_, ?_, ?_, ?_⟩
        · rw [hA.next]; exact lt_of_lt_of_le hB.lt hB1.le
        · rw [hA.next]; exact le_trans hB.le hB1.le
        · intro u hu
          have hug : u < g.next := lt_of_lt_of_le hu hB.le
          have huv : u ≠ v := by rintro rfl; exact absurd hu (not_lt.2 hv)
          have h1 := hA.kids u
          rw [if_neg huv] at h1
          have h2 := hA.sensors u
          obtain ⟨h3, h4⟩ := hA.outside u (hnr u hug)
          have : g2.node u = g1.node u := by
            cases hx : g2.node u
            cases hy : g1.node u
            rw [hx, hy] at h1 h2 h3 h4
            simp only at h1 h2 h3 h4
            rw [h1, h2, h3, h4]
          rw [this, hB1.old u hug, hB.old u hu]
        · intro p k' c hm hp
          rw [hA.kids p] at hm
          have old : (k', c) ∈ (g1.node p).kids → h.next ≤ c := by
            intro hm
            by_cases hpg : p < g.next
            · rw [hB1.old p hpg] at hm
              exact hB.closed p k' c hm hp
            · exact le_trans hB.le (hB1.closed p k' c hm (not_lt.1 hpg))
          split_ifs at hm with hpv
          · subst hpv
            rcases mem_set hm with ⟨_, rfl⟩ | hm
            · exact le_trans hB.le hwg
            · exact old hm
          · exact old hm
        · intro q k' hm
          rw [hA.kids q] at hm
          have old : (k', v) ∉ (g1.node q).kids := by
            intro hm
            by_cases hqg : q < g.next
            · rw [hB1.old q hqg] at hm
              exact hB.free q k' hm
            · exact absurd (hB1.closed q k' v hm (not_lt.1 hqg)) (not_le.2 hB.lt)
          split_ifs at hm with hqv
          · subst hqv
            rcases mem_set hm with ⟨_, hvw⟩ | hm
            · exact absurd hB.lt (not_lt.2 (hvw ▸ hwg))
            · exact old hm
          · exact old hm
        · intro u hu
          rw [hA.sensors u]
          by_cases hug : u < g.next
          · rw [hB1.old u hug]; exact hB.sensors u hu
          · exact hB1.sensors u (not_lt.1 hug)
        · rw [(hA.outside v (hnr v hB.lt)).1]; exact hvr.1
        · rw [(hA.outside v (hnr v hB.lt)).2]; exact hvr.2
end

/-! ## Sensors -/

/-- Redirecting one sensor. -/
theorem inv_point_sensor {h : Heap} (hI : Inv h) {v : Ref} (hs : IsSensor h v) (r : Ref)
    (m : Option ℕ) : Inv (h.point v r m) := by
  obtain ⟨q0, hq0⟩ := hs
  obtain ⟨_, _, f3, f4, _⟩ := hI.sens q0 v hq0
  have kk := point_kids h v r m
  refine ⟨?_, ?_, ?_, ?_⟩
  · intro p k c hm
    rw [(kk p).1] at hm
    exact hI.bound p k c hm
  · intro p k c hm
    rw [(kk p).1] at hm
    have hc : c ≠ v := by rintro rfl; exact f3 p k hm
    have hp : p ≠ v := by rintro rfl; rw [f4] at hm; simp at hm
    rw [point_ne h r m hc, point_ne h r m hp]
    exact hI.edge p k c hm
  · intro p p' k k' c h1 h2
    rw [(kk p).1] at h1
    rw [(kk p').1] at h2
    exact hI.uniq p p' k k' c h1 h2
  · intro p w hw
    rw [(kk p).2] at hw
    obtain ⟨a1, a2, a3, a4, a5⟩ := hI.sens p w hw
    refine ⟨a1, a2, ?_, ?_, ?_⟩
    · intro q k hm
      rw [(kk q).1] at hm
      exact a3 q k hm
    · rw [(kk w).1]; exact a4
    · rw [(kk w).2]; exact a5

theorem openSensors_spec {h : Heap} (hI : Inv h) (p : Ref) :
    Inv (openSensors h p) ∧ (openSensors h p).next = h.next ∧
      (∀ u, ((openSensors h p).node u).kids = (h.node u).kids ∧
        ((openSensors h p).node u).sensors = (h.node u).sensors) ∧
      (∀ u ∉ (h.node p).sensors, (openSensors h p).node u = h.node u) ∧
      (∀ u ∈ (h.node p).sensors, ((openSensors h p).node u).root = (h.node p).root ∧
        ((openSensors h p).node u).mesh = (h.node p).mesh) := by
  have hpp : p ∉ (h.node p).sensors := fun hm => by
    have h5 := (hI.sens p p hm).2.2.2.2
    rw [h5] at hm
    simp at hm
  have loop : ∀ (l : List Ref) (g : Heap), Inv g → (∀ u, (g.node u).kids = (h.node u).kids ∧
      (g.node u).sensors = (h.node u).sensors) → g.next = h.next → g.node p = h.node p →
      (∀ v ∈ l, v ∈ (h.node p).sensors) →
      let g' := l.foldl (fun h v => h.point v (h.node p).root (h.node p).mesh) g
      Inv g' ∧ g'.next = h.next ∧ (∀ u, (g'.node u).kids = (h.node u).kids ∧
        (g'.node u).sensors = (h.node u).sensors) ∧
        (∀ u ∉ l, g'.node u = g.node u) ∧
        (∀ u ∈ l, (g'.node u).root = (h.node p).root ∧ (g'.node u).mesh = (h.node p).mesh) := by
    intro l
    induction l with
    | nil => intro g h1 h2 h3 h4 _; exact ⟨h1, h3, h2, fun _ _ => rfl, by simp⟩
    | cons v l ih =>
      intro g h1 h2 h3 h4 h5
      have hv := h5 v (by simp)
      have hvp : p ≠ v := by rintro rfl; exact hpp hv
      have hs : IsSensor g v := ⟨p, by rw [(h2 p).2]; exact hv⟩
      have kk := point_kids g v (g.node p).root (g.node p).mesh
      obtain ⟨b1, b2, b3, b4, b5⟩ := ih (g.point v (g.node p).root (g.node p).mesh)
        (inv_point_sensor h1 hs _ _)
        (fun u => ⟨(kk u).1.trans (h2 u).1, (kk u).2.trans (h2 u).2⟩) h3
        ((point_ne g _ _ hvp).trans h4) (fun w hw => h5 w (by simp [hw]))
      simp only [List.foldl_cons]
      refine ⟨b1, b2, b3, ?_, ?_⟩
      · intro u hu
        simp only [List.mem_cons, not_or] at hu
        rw [b4 u hu.2, point_ne g _ _ hu.1]
      · intro u hu
        by_cases hul : u ∈ l
        · exact b5 u hul
        · have huv : u = v := by
            rcases List.mem_cons.1 hu with h | h
            · exact h
            · exact absurd h hul
          subst huv
          rw [b4 u hul, (point_self g u _ _).1, (point_self g u _ _).2, h4]
          exact ⟨rfl, rfl⟩
  exact loop _ h hI (fun _ => ⟨rfl, rfl⟩) rfl rfl (fun _ h => h)

theorem addSensor_spec {h : Heap} (hI : Inv h) {p : Ref} (hp : p < h.next)
    (hps : ¬ IsSensor h p) : Inv (addSensor h p).2 ∧
      (∀ u, u ≠ h.next → u ≠ p → (addSensor h p).2.node u = h.node u) ∧
      ((addSensor h p).2.node p).root = (h.node p).root ∧
      ((addSensor h p).2.node p).mesh = (h.node p).mesh ∧
      ((addSensor h p).2.node p).kids = (h.node p).kids ∧
      ((addSensor h p).2.node p).sensors = (h.node p).sensors ++ [h.next] ∧
      (addSensor h p).2.node h.next = ⟨h.next, none, [], []⟩ := by
  have hne : p ≠ h.next := Nat.ne_of_lt hp
  have e1 : ∀ u, u ≠ h.next → u ≠ p → (addSensor h p).2.node u = h.node u := by
    intro u h1 h2
    simp [addSensor, alloc, Function.update_of_ne h1, Function.update_of_ne h2]
  have e2 : (addSensor h p).2.node p =
      { h.node p with sensors := (h.node p).sensors ++ [h.next] } := by
    simp [addSensor, alloc, Function.update_of_ne hne]
  have e3 : (addSensor h p).2.node h.next = ⟨h.next, none, [], []⟩ := by
    simp [addSensor, alloc, Function.update_of_ne (Ne.symm hne)]
  have kid : ∀ u, u ≠ h.next → ((addSensor h p).2.node u).kids = (h.node u).kids := by
    intro u hu
    by_cases hup : u = p
    · subst hup; rw [e2]
    · rw [e1 u hu hup]
  have rt : ∀ u, u ≠ h.next → ((addSensor h p).2.node u).root = (h.node u).root ∧
      ((addSensor h p).2.node u).mesh = (h.node u).mesh := by
    intro u hu
    by_cases hup : u = p
    · subst hup; rw [e2]; exact ⟨rfl, rfl⟩
    · rw [e1 u hu hup]; exact ⟨rfl, rfl⟩
  have km : ∀ u k c, (k, c) ∈ ((addSensor h p).2.node u).kids → u ≠ h.next ∧
      (k, c) ∈ (h.node u).kids := by
    intro u k c hm
    have hu : u ≠ h.next := by rintro rfl; rw [e3] at hm; simp at hm
    exact ⟨hu, by rwa [kid u hu] at hm⟩
  have nx : (addSensor h p).2.next = h.next + 1 := rfl
  refine ⟨⟨?_, ?_, ?_, ?_⟩, e1, by rw [e2], by rw [e2], by rw [e2], by rw [e2], e3⟩
  · intro q k c hm
    obtain ⟨h1, h2⟩ := hI.bound q k c (km q k c hm).2
    rw [nx]
    exact ⟨Nat.lt_succ_of_lt h1, Nat.lt_succ_of_lt h2⟩
  · intro q k c hm
    obtain ⟨hq, hm⟩ := km q k c hm
    have hc : c ≠ h.next := Nat.ne_of_lt (hI.bound q k c hm).2
    rw [(rt q hq).1, (rt q hq).2, (rt c hc).1, (rt c hc).2]
    exact hI.edge q k c hm
  · intro q q' k k' c h1 h2
    exact hI.uniq q q' k k' c (km _ _ _ h1).2 (km _ _ _ h2).2
  · intro q w hw
    rw [nx]
    have hfree : ∀ w, Free h w → Free (addSensor h p).2 w := fun w hf q k hm =>
      hf q k (km q k w hm).2
    have hold : w ∈ (h.node q).sensors → q < h.next + 1 ∧ w < h.next + 1 ∧
        Free (addSensor h p).2 w ∧ ((addSensor h p).2.node w).kids = [] ∧
        ((addSensor h p).2.node w).sensors = [] := by
      intro hw'
      obtain ⟨a1, a2, a3, a4, a5⟩ := hI.sens q w hw'
      have hwn : w ≠ h.next := Nat.ne_of_lt a2
      have hwp : w ≠ p := fun h => hps ⟨q, h ▸ hw'⟩
      refine ⟨Nat.lt_succ_of_lt a1, Nat.lt_succ_of_lt a2, hfree w a3, ?_, ?_⟩
      · rw [kid w hwn]; exact a4
      · rw [e1 w hwn hwp]; exact a5
    by_cases hqp : q = p
    · subst hqp
      rw [e2] at hw
      rcases List.mem_append.1 hw with hw | hw
      · exact hold hw
      · simp at hw
        subst hw
        refine ⟨Nat.lt_succ_of_lt hp, Nat.lt_succ_self _, hfree _ (free_alloc hI (le_refl _)), ?_, ?_⟩
        · rw [e3]
        · rw [e3]
    · have hqn : q ≠ h.next := by rintro rfl; rw [e3] at hw; simp at hw
      rw [e1 q hqn hqp] at hw
      exact hold hw

/-! ## The solver -/

/-- A solver with mesh `m`: its own root, not a part of something else. -/
structure Solver (h : Heap) (s : Ref) (m : Option ℕ) : Prop where
  inv : Inv h
  lt : s < h.next
  free : Free h s
  sensor : ¬ IsSensor h s
  root : (h.node s).root = s
  mesh : (h.node s).mesh = m

theorem inv_steps {n : ℕ} {s : Ref} {h h' : Heap} (hI : Inv h) (hs : Steps n s h h') : Inv h' := by
  induction hs with
  | refl => exact hI
  | new h1 h2 sh mesh v _ e ih => exact (construct_spec n sh none mesh h1 h2 v ih e).2.inv
  | attach h1 h2 p k v _ hp hv hf hr hvs hps _ e ih =>
    exact (attach_spec ih hp hv hf hr hvs hps e).inv
  | select h1 h2 p k sh _ hp hps e ih =>
    unfold select at e
    cases hc : construct n sh (some (h1.node p).root) (h1.node p).mesh h1 with
    | error x => rw [hc] at e; cases e
    | ok res =>
      obtain ⟨v, g⟩ := res
      rw [hc] at e
      cases e
      obtain ⟨rfl, hB⟩ := construct_spec n sh _ _ h1 g v ih hc
      have hsens : ∀ u, ¬ IsSensor h1 u → ¬ IsSensor g u := by
        rintro u hu ⟨q, hq⟩
        by_cases hqg : q < h1.next
        · rw [hB.old q hqg] at hq; exact hu ⟨q, hq⟩
        · rw [hB.sensors q (not_lt.1 hqg)] at hq; simp at hq
      refine inv_store hB.inv k (lt_of_lt_of_le hp hB.le) hB.lt hB.free
        (hsens _ (not_sensor_of_ge ih (le_refl _))) (hsens _ hps) ?_
      rw [hB.root, hB.mesh, hB.old p hp]
      exact ⟨rfl, rfl⟩
  | addSensor h1 p _ hp hps ih => exact (addSensor_spec ih hp hps).1
  | openSensors h1 p _ ih => exact (openSensors_spec ih p).1

theorem solver_steps {n : ℕ} {s : Ref} {m : Option ℕ} {h h' : Heap} (hS : Solver h s m)
    (hs : Steps n s h h') : Solver h' s m := by
  have main : Steps n s h h' → s < h'.next ∧ Free h' s ∧ ¬ IsSensor h' s ∧
      (h'.node s).root = s ∧ (h'.node s).mesh = m := by
    intro hs
    induction hs with
    | refl => exact ⟨hS.lt, hS.free, hS.sensor, hS.root, hS.mesh⟩
    | new h1 h2 sh mesh v hs1 e ih =>
      obtain ⟨i1, i2, i3, i4, i5⟩ := ih hs1
      have hI1 := inv_steps hS.inv hs1
      obtain ⟨_, hB⟩ := construct_spec n sh none mesh h1 h2 v hI1 e
      refine ⟨lt_of_lt_of_le i1 hB.le, ?_, ?_, ?_, ?_⟩
      · intro q k hm
        by_cases hq : q < h1.next
        · rw [hB.old q hq] at hm; exact i2 q k hm
        · exact absurd (hB.closed q k s hm (not_lt.1 hq)) (not_le.2 i1)
      · rintro ⟨q, hq⟩
        by_cases hqg : q < h1.next
        · rw [hB.old q hqg] at hq; exact i3 ⟨q, hq⟩
        · rw [hB.sensors q (not_lt.1 hqg)] at hq; simp at hq
      · rw [hB.old s i1]; exact i4
      · rw [hB.old s i1]; exact i5
    | attach h1 h2 p k v hs1 hp hv hf hr hvs hps hsv e ih =>
      obtain ⟨i1, i2, i3, i4, i5⟩ := ih hs1
      have hI1 := inv_steps hS.inv hs1
      have hA := attach_spec hI1 hp hv hf hr hvs hps e
      have hns : ¬ Reach h1 v s := by
        intro hr
        have last : ∀ {a b : Ref}, Reach h1 a b → b = a ∨ ∃ c k, (k, b) ∈ (h1.node c).kids := by
          intro a b hab
          induction hab with
          | refl p => exact .inl rfl
          | step p q u k hk _ ih =>
            rcases ih with rfl | ⟨c, k', h2⟩
            · exact .inr ⟨p, k, hk⟩
            · exact .inr ⟨c, k', h2⟩
        rcases last hr with h | ⟨c, k', h⟩
        · exact hsv h.symm
        · exact i2 c k' h
      refine ⟨by rw [hA.next]; exact i1, ?_, ?_, ?_, ?_⟩
      · intro q k' hm
        rw [hA.kids q] at hm
        split_ifs at hm with hqp
        · subst hqp
          rcases mem_set hm with ⟨_, h⟩ | hm
          · exact hsv h.symm
          · exact i2 _ k' hm
        · exact i2 q k' hm
      · rintro ⟨q, hq⟩
        rw [hA.sensors q] at hq
        exact i3 ⟨q, hq⟩
      · rw [(hA.outside s hns).1]; exact i4
      · rw [(hA.outside s hns).2]; exact i5
    | select h1 h2 p k sh hs1 hp hps e ih =>
      obtain ⟨i1, i2, i3, i4, i5⟩ := ih hs1
      have hI1 := inv_steps hS.inv hs1
      unfold select at e
      cases hc : construct n sh (some (h1.node p).root) (h1.node p).mesh h1 with
      | error x => rw [hc] at e; cases e
      | ok res =>
        obtain ⟨v, g⟩ := res
        rw [hc] at e
        cases e
        obtain ⟨hv, hB⟩ := construct_spec n sh _ _ h1 g v hI1 hc
        have hst : ∀ u, ((g.store p k v).node u).root = (g.node u).root ∧
            ((g.store p k v).node u).mesh = (g.node u).mesh ∧
            ((g.store p k v).node u).sensors = (g.node u).sensors := by
          intro u
          unfold Heap.store
          by_cases hu : u = p
          · subst hu; simp
          · simp [Function.update_of_ne hu]
        have hfg : Free g s := by
          intro q k hm
          by_cases hq : q < h1.next
          · rw [hB.old q hq] at hm; exact i2 q k hm
          · exact absurd (hB.closed q k s hm (not_lt.1 hq)) (not_le.2 i1)
        refine ⟨lt_of_lt_of_le i1 hB.le, ?_, ?_, ?_, ?_⟩
        · intro q k' hm
          unfold Heap.store at hm
          by_cases hq : q = p
          · subst hq
            simp only [Function.update_self] at hm
            rcases mem_set hm with ⟨_, hsv⟩ | hm
            · rw [hsv, hv] at i1; exact lt_irrefl _ i1
            · exact hfg _ k' hm
          · simp only [Function.update_of_ne hq] at hm
            exact hfg q k' hm
        · rintro ⟨q, hq⟩
          rw [(hst q).2.2] at hq
          by_cases hqg : q < h1.next
          · rw [hB.old q hqg] at hq; exact i3 ⟨q, hq⟩
          · rw [hB.sensors q (not_lt.1 hqg)] at hq; simp at hq
        · rw [(hst s).1, hB.old s i1]; exact i4
        · rw [(hst s).2.1, hB.old s i1]; exact i5
    | addSensor h1 p hs1 hp hps ih =>
      obtain ⟨i1, i2, i3, i4, i5⟩ := ih hs1
      have hI1 := inv_steps hS.inv hs1
      obtain ⟨_, a1, a2, a3, a4, a5, a6⟩ := addSensor_spec hI1 hp hps
      have hsn : s ≠ h1.next := Nat.ne_of_lt i1
      refine ⟨Nat.lt_succ_of_lt i1, ?_, ?_, ?_, ?_⟩
      · intro q k hm
        by_cases hq : q = h1.next
        · subst hq; rw [a6] at hm; simp at hm
        · by_cases hqp : q = p
          · subst hqp; rw [a4] at hm; exact i2 _ k hm
          · rw [a1 q hq hqp] at hm; exact i2 q k hm
      · rintro ⟨q, hm⟩
        by_cases hq : q = h1.next
        · subst hq; rw [a6] at hm; simp at hm
        · by_cases hqp : q = p
          · subst hqp
            rw [a5] at hm
            rcases List.mem_append.1 hm with hm | hm
            · exact i3 ⟨_, hm⟩
            · simp at hm; exact hsn hm
          · rw [a1 q hq hqp] at hm; exact i3 ⟨q, hm⟩
      · by_cases hsp : s = p
        · rw [hsp, a2, ← hsp]; exact i4
        · rw [a1 s hsn hsp]; exact i4
      · by_cases hsp : s = p
        · rw [hsp, a3, ← hsp]; exact i5
        · rw [a1 s hsn hsp]; exact i5
    | openSensors h1 p hs1 ih =>
      obtain ⟨i1, i2, i3, i4, i5⟩ := ih hs1
      have hI1 := inv_steps hS.inv hs1
      obtain ⟨_, b2, b3, b4, _⟩ := openSensors_spec hI1 p
      have hsn : s ∉ (h1.node p).sensors := fun h => i3 ⟨p, h⟩
      refine ⟨by rw [b2]; exact i1, ?_, ?_, ?_, ?_⟩
      · intro q k hm
        rw [(b3 q).1] at hm
        exact i2 q k hm
      · rintro ⟨q, hq⟩
        rw [(b3 q).2] at hq
        exact i3 ⟨q, hq⟩
      · rw [b4 s hsn]; exact i4
      · rw [b4 s hsn]; exact i5
  obtain ⟨c1, c2, c3, c4, c5⟩ := main hs
  exact ⟨inv_steps hS.inv hs, c1, c2, c3, c4, c5⟩

theorem reach_root {h : Heap} (hI : Inv h) {s u : Ref} (hr : Reach h s u) :
    (h.node u).root = (h.node s).root ∧ (h.node u).mesh = (h.node s).mesh := by
  induction hr with
  | refl p => exact ⟨rfl, rfl⟩
  | step p q u k hk _ ih =>
    obtain ⟨e1, e2⟩ := hI.edge p k q hk
    exact ⟨ih.1.trans e1, ih.2.trans e2⟩

theorem solver_new {n : ℕ} {h0 h1 : Heap} {s : Ref} {sh : Shape} {m : Option ℕ} (hI : Inv h0)
    (e : construct n sh none m h0 = .ok (s, h1)) : Solver h1 s m := by
  obtain ⟨hs, hB⟩ := construct_spec n sh none m h0 h1 s hI e
  refine ⟨hB.inv, hB.lt, hB.free, ?_, hB.root, hB.mesh⟩
  rintro ⟨q, hq⟩
  by_cases hqg : q < h0.next
  · rw [hB.old q hqg] at hq
    exact not_sensor_of_ge hI (hs ▸ le_refl _) ⟨q, hq⟩
  · rw [hB.sensors q (not_lt.1 hqg)] at hq; simp at hq

/-- **C18 (partial)** For every history: create any configurations, create a solver `s` with mesh `m`
and options of any shape, and go on creating, attaching instances, selecting by name and adding sensors in any
order. Then the solver and every configuration below it refer to the solver as root and to its mesh.

Missing: an instance that is already part of another configuration must not be attached
(`C18_fails_shared`), and sensors refer to the solver only when their stream has been opened
(`C18_fails_sensor`, `C18_sensors`). -/
theorem C18_history_partial (n : ℕ) (h0 h1 h : Heap) (s : Ref) (sh : Shape) (m : Option ℕ)
    (before : Steps n s Heap.empty h0) (new : construct n sh none m h0 = .ok (s, h1))
    (after : Steps n s h1 h) (u : Ref) (hu : Reach h s u) :
    (h.node u).root = s ∧ (h.node u).mesh = m := by
  have hS := solver_steps (solver_new (inv_steps inv_empty before) new) after
  obtain ⟨e1, e2⟩ := reach_root hS.inv hu
  exact ⟨e1.trans hS.root, e2.trans hS.mesh⟩

/-- **C18** When a sensor stream of the solver is opened its sensors refer to the solver and its
mesh. -/
theorem C18_sensors (n : ℕ) (h0 h1 h : Heap) (s : Ref) (sh : Shape) (m : Option ℕ)
    (before : Steps n s Heap.empty h0) (new : construct n sh none m h0 = .ok (s, h1))
    (after : Steps n s h1 h) (p v : Ref) (hp : Reach h s p) (hv : v ∈ (h.node p).sensors) :
    ((openSensors h p).node v).root = s ∧ ((openSensors h p).node v).mesh = m := by
  have hS := solver_steps (solver_new (inv_steps inv_empty before) new) after
  obtain ⟨e1, e2⟩ := C18_history_partial n h0 h1 h s sh m before new after p hp
  obtain ⟨_, _, _, _, b5⟩ := openSensors_spec hS.inv p
  rw [(b5 v hv).1, (b5 v hv).2]
  exact ⟨e1, e2⟩

/-- **C18 fails** for a sensor between its creation and the opening of the stream: it refers to
itself and has no mesh. -/
theorem C18_fails_sensor (h : Heap) (p s : Ref) (hp : p < h.next) (hs : s < h.next) :
    (addSensor h p).1 ∈ ((addSensor h p).2.node p).sensors ∧
      ((addSensor h p).2.node (addSensor h p).1).root ≠ s ∧
      ((addSensor h p).2.node (addSensor h p).1).mesh = none := by
  have hne : p ≠ h.next := Nat.ne_of_lt hp
  have e3 : (addSensor h p).2.node h.next = ⟨h.next, none, [], []⟩ := by
    simp [addSensor, alloc, Function.update_of_ne (Ne.symm hne)]
  have e1 : (addSensor h p).1 = h.next := rfl
  refine ⟨?_, ?_, ?_⟩
  · simp [addSensor, alloc, Function.update_of_ne hne]
  · rw [e1, e3]; exact Ne.symm (Nat.ne_of_lt hs)
  · rw [e1, e3]

/-- **C18 fails** whenever one instance is attached to two solvers `p` and `q`: the first one still
has it as an option, but it refers to the second one and to its mesh. -/
theorem C18_fails_shared (n : ℕ) (h h1 h2 : Heap) (hI : Inv h) (p q v : Ref) (k k' : String)
    (mp mq : Option ℕ) (hp : Solver h p mp) (hq : Solver h q mq) (hpq : p ≠ q) (hv : v < h.next)
    (hf : Free h v) (hvs : ¬ IsSensor h v) (hvp : ¬ Reach h v p) (hvq : ¬ Reach h v q)
    (e1 : attach n h p k v = .ok h1) (e2 : attach n h1 q k' v = .ok h2) :
    Reach h2 p v ∧ (h2.node p).root = p ∧ (h2.node v).root = q ∧ (h2.node v).mesh = mq := by
  have hA := attach_spec hI hp.lt hv hf hvp hvs hp.sensor e1
  have hr1 : (h1.node q).root = q ∧ (h1.node q).mesh = mq := by
    rw [(hA.outside q hvq).1, (hA.outside q hvq).2]
    exact ⟨hq.root, hq.mesh⟩
  have hp1 : (h1.node p).root = p := by
    rw [(hA.outside p hvp).1]
    exact hp.root
  have hk1 : (k, v) ∈ (h1.node p).kids := by
    rw [hA.kids p, if_pos rfl]
    exact Dict.mem_of_get? (by rw [Dict.get?_set, if_pos rfl])
  -- neither solver is below the instance, also afterwards
  have hnr : ¬ Reach h1 v p := by
    intro hr
    have last : ∀ {a b : Ref}, Reach h1 a b → b = a ∨ ∃ c k, (k, b) ∈ (h1.node c).kids := by
      intro a b hab
      induction hab with
      | refl p => exact .inl rfl
      | step p q u k hk _ ih =>
        rcases ih with rfl | ⟨c, k', h2⟩
        · exact .inr ⟨p, k, hk⟩
        · exact .inr ⟨c, k', h2⟩
    rcases last hr with h | ⟨c, k0, h⟩
    · exact hvp (h ▸ .refl _)
    · rw [hA.kids c] at h
      split_ifs at h with hc
      · subst hc
        rcases mem_set h with ⟨_, h⟩ | h
        · exact hvp (h ▸ .refl _)
        · exact hp.free _ k0 h
      · exact hp.free c k0 h
  unfold attach at e2
  rw [hr1.1, hr1.2] at e2
  cases hs : sync n (h1.point v q mq) v with
  | error x => rw [hs] at e2; cases e2
  | ok g =>
    rw [hs] at e2
    cases e2
    have hS := synced_point (sync_spec n _ g v _ _ (point_self h1 v _ _) hs)
    have hst : ∀ u, ((g.store q k' v).node u).root = (g.node u).root ∧
        ((g.store q k' v).node u).mesh = (g.node u).mesh := by
      intro u
      unfold Heap.store
      by_cases hu : u = q
      · subst hu; simp
      · simp [Function.update_of_ne hu]
    refine ⟨?_, ?_, ?_, ?_⟩
    · refine .step p v v k ?_ (.refl v)
      unfold Heap.store
      simp only [Function.update_of_ne hpq]
      rw [(hS.kids p).1]
      exact hk1
    · rw [(hst p).1, hS.outside p hnr]; exact hp1
    · rw [(hst v).1]; exact (hS.inside v (.refl v)).1
    · rw [(hst v).2]; exact (hS.inside v (.refl v)).2

/-- A class with one option, which has an option itself. -/
def demoShape : Shape := .node [("fem", .node [("order", .node [])])]

/-- Two solvers and a separate configuration. -/
def twoSolvers : Except PyErr Heap := do
  let (_, h) ← construct 5 demoShape none (some 1) .empty
  let (_, h) ← construct 5 demoShape none (some 2) h
  let (_, h) ← construct 5 (.node [("order", .node [])]) none none h
  return h

/-- Attaching the separate configuration to the first solver and selecting one of its options anew
redirects it and its option; attaching it to the second solver as well takes it away. -/
example :
    (do let h ← twoSolvers
        let h ← attach 5 h 0 "fem" 6
        let h ← select 5 h 6 "order" demoShape
        let h' ← attach 5 h 3 "fem" 6
        return ((h.node 0).kids, (h.node 6).kids, (h.node 6).root, (h.node 8).mesh,
          (h'.node 0).kids, (h'.node 6).root)) =
      .ok ([("fem", 6)], [("order", 8)], 0, some 1, [("fem", 6)], 3) := by
  simp [twoSolvers, demoShape, construct, resetAll, attach, sync, syncStep, alloc, select,
    Heap.store, Heap.point, Heap.empty, Dict.set, Dict.has, Function.update, bind, Except.bind, pure,
    Except.pure]

end Dream.Ptr
