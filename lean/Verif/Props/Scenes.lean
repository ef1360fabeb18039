import Verif.Spec.Scenes
import Verif.Props.Output

/-!
# C108: pictures follow the solution
-/

set_option linter.unusedSectionVars false

namespace Dream

open Run _root_.Spec

variable {C : Type} (notebook : Bool) (body : ℕ → Option (Dict String C))

/-- The scenes after what was drawn last. -/
def scenesOf (d : Option (Dict String C)) : Scenes C := d.bind fun f => ioDraw notebook f

theorem redraw_round (d : Option (Dict String C)) :
    ioRedraw false (scenesOf notebook d) = pictureRound notebook d := by
  cases d with
  | none => rfl
  | some f =>
    cases notebook
    · simp [scenesOf, ioDraw, ioRedraw, pictureRound]
    · simp [scenesOf, ioDraw, ioRedraw, pictureRound, List.filterMap_map]

/-- The scenes after the yields of a trace. -/
def scenesAfter (s : Scenes C) : List Op → Scenes C
  | [] => s
  | .yield_ it :: os =>
    scenesAfter (match body it with | some f => ioDraw notebook f | none => s) os
  | _ :: os => scenesAfter s os

theorem pictures_append (s : Scenes C) (n : ℕ) (a b : List Op) :
    pictures notebook body s n (a ++ b) =
      pictures notebook body s n a ++
        pictures notebook body (scenesAfter notebook body s a) (n + updates a) b := by
  induction a generalizing s n with
  | nil => simp [pictures, scenesAfter, updates]
  | cons o a ih =>
    have u : updates (o :: a) = updates [o] + updates a := by
      rw [← List.singleton_append]; simp only [updates, List.filter_append, List.length_append]
    rw [u]
    cases o with
    | update it =>
      have e : updates [Op.update it] = 1 := rfl
      simp only [List.cons_append, pictures, scenesAfter, ih, e, Nat.add_assoc]
    | yield_ it =>
      have e : updates [Op.yield_ it] = 0 := rfl
      simp only [List.cons_append, pictures, scenesAfter, e, Nat.zero_add]
      cases body it <;> exact ih _ _
    | _ =>
      simp only [List.cons_append, pictures, scenesAfter, List.append_assoc]
      rw [ih]
      simp only [updates, List.filter_cons, List.filter_nil, Bool.false_eq_true, if_false,
        List.length_nil, Nat.zero_add]

theorem pictures_prefix (s : Scenes C) (n : ℕ) {a b : List Op} (hp : a <+: b) :
    pictures notebook body s n a <+: pictures notebook body s n b := by
  obtain ⟨c, rfl⟩ := hp
  rw [pictures_append]
  exact List.prefix_append _ _

/-- Operations that neither show, draw nor change anything. -/
def Op.dark : Op → Prop
  | .update _ | .yield_ _ | .redraw => False
  | _ => True

theorem pictures_dark (s : Scenes C) (n : ℕ) (tr : List Op) (ht : ∀ o ∈ tr, o.dark) :
    pictures notebook body s n tr = [] ∧ scenesAfter notebook body s tr = s ∧ updates tr = 0 := by
  induction tr with
  | nil => simp [pictures, scenesAfter, updates]
  | cons o tr ih =>
    have h := ih fun o ho => ht o (by simp [ho])
    have ho := ht o (by simp)
    cases o <;> first | exact ho.elim |
      simpa [pictures, scenesAfter, updates] using h

theorem pictures_skip (s : Scenes C) (n : ℕ) (a b : List Op) (ht : ∀ o ∈ a, o.dark) :
    pictures notebook body s n (a ++ b) = pictures notebook body s n b := by
  obtain ⟨h1, h2, h3⟩ := pictures_dark notebook body s n a ht
  rw [pictures_append, h1, h2, h3]
  rfl

theorem pictures_skip_right (s : Scenes C) (n : ℕ) (a b : List Op) (ht : ∀ o ∈ b, o.dark) :
    pictures notebook body s n (a ++ b) = pictures notebook body s n a := by
  rw [pictures_append, (pictures_dark notebook body _ _ b ht).1, List.append_nil]

theorem lastDrawn_succ (first : Option (Dict String C)) (k : ℕ) :
    lastDrawn first body (k + 1) = (body k).or (lastDrawn first body k) := by
  unfold lastDrawn
  rw [List.range_succ, List.filterMap_append, List.getLast?_append]
  cases h : body k <;> simp [h]

theorem scenesOf_succ (first : Option (Dict String C)) (k : ℕ) :
    scenesOf notebook (lastDrawn first body (k + 1)) =
      (match body k with
        | some f => ioDraw notebook f
        | none => scenesOf notebook (lastDrawn first body k)) := by
  rw [lastDrawn_succ]
  cases body k <;> rfl

theorem dark_map {α : Type} (l : List α) (f : α → Op) (h : ∀ a, (f a).dark) :
    ∀ o ∈ l.map f, o.dark := by
  intro o ho
  obtain ⟨a, _, rfl⟩ := List.mem_map.1 ho
  exact h a

theorem step_pictures (first : Option (Dict String C)) (file : List SKind) (k : ℕ) (t : ℚ) :
    pictures notebook body (scenesOf notebook (lastDrawn first body k)) k (stepOps file k t) =
        (pictureRound notebook (lastDrawn first body (k + 1))).map (fun r => (r, k + 1)) ∧
      scenesAfter notebook body (scenesOf notebook (lastDrawn first body k)) (stepOps file k t) =
        scenesOf notebook (lastDrawn first body (k + 1)) ∧
      updates (stepOps file k t) = 1 := by
  have hd : ∀ o ∈ file.map fun s => Op.inStep s t k, o.dark := dark_map _ _ fun _ => trivial
  obtain ⟨-, h2, -⟩ := pictures_dark notebook body
    (scenesOf notebook (lastDrawn first body (k + 1))) (k + 1) _ hd
  have h3 : updates (file.map fun s => Op.inStep s t k) = 0 :=
    (pictures_dark notebook body none 0 _ hd).2.2
  have hs := scenesOf_succ notebook body first k
  refine ⟨?_, ?_, ?_⟩
  · rw [← redraw_round]
    unfold stepOps
    rw [List.append_assoc]
    show pictures notebook body _ k (.solve k :: .update k :: .yield_ k ::
      ((file.map fun s => Op.inStep s t k) ++ [.redraw])) = _
    simp only [pictures]
    cases hb : body k with
    | none =>
      rw [hb] at hs
      simp only at hs ⊢
      rw [pictures_skip notebook body _ _ _ _ hd, ← hs]
      simp [pictures]
    | some f =>
      rw [hb] at hs
      simp only at hs ⊢
      rw [pictures_skip notebook body _ _ _ _ hd, ← hs]
      simp [pictures]
  · unfold stepOps
    rw [List.append_assoc]
    show scenesAfter notebook body _ (.solve k :: .update k :: .yield_ k ::
      ((file.map fun s => Op.inStep s t k) ++ [.redraw])) = _
    simp only [scenesAfter]
    rw [← hs]
    generalize scenesOf notebook (lastDrawn first body (k + 1)) = s at h2 ⊢
    clear hs
    clear h3
    generalize (file.map fun s => Op.inStep s t k) = l at hd h2 ⊢
    induction l with
    | nil => rfl
    | cons o l ih =>
      have ho := hd o (by simp)
      cases o <;> first | exact ho.elim |
        exact ih (fun o h => hd o (by simp [h])) (by simpa [scenesAfter] using h2)
  · unfold stepOps
    simp [updates, List.filter_append]

theorem steps_pictures (first : Option (Dict String C)) (file : List SKind) (l : List ℚ) (k : ℕ) :
    pictures notebook body (scenesOf notebook (lastDrawn first body k)) k
        ((l.zipIdx k).flatMap fun tit => stepOps file tit.2 tit.1) =
      (List.range' k l.length).flatMap fun it =>
        (pictureRound notebook (lastDrawn first body (it + 1))).map fun r => (r, it + 1) := by
  induction l generalizing k with
  | nil => rfl
  | cons t l ih =>
    obtain ⟨h1, h2, h3⟩ := step_pictures notebook body first file k t
    rw [List.zipIdx_cons, List.flatMap_cons, pictures_append, h1, h2, h3, ih (k + 1),
      List.length_cons, List.range'_succ, List.flatMap_cons]

/-- **C108** (transient runs) After each time step there is one round of pictures: every field that
was drawn last, in order, showing the solution of this step. Fields drawn by the loop of the user at
a yield are shown from the same step on. -/
theorem C108_transient (first : Option (Dict String C)) (data : List SKind) (reassemble : Bool)
    (tm : Timer) (ts : List (ℚ × ℚ)) (hr : tm.run false 1 = .ok ts) (hne : ts ≠ [])
    (hs : .ngsmesh ∉ data ∧ .settings ∉ data) :
    (transientRoutine quiet data reassemble tm).result = .ok () ∧
    pictures notebook body (scenesOf notebook first) 0
        (transientRoutine quiet data reassemble tm).trace =
      (List.range ts.length).flatMap fun it =>
        (pictureRound notebook (lastDrawn first body (it + 1))).map fun r => (r, it + 1) := by
  have hs' : data.filter SKind.isSingle = [] := by
    rw [List.filter_eq_nil_iff]
    intro a ha
    cases a <;> simp [SKind.isSingle] <;> first | exact absurd ha hs.1 | exact absurd ha hs.2
  obtain ⟨l, t, ht⟩ := (List.eq_nil_or_concat' (ts.map Prod.snd).zipIdx).resolve_left (by
    simpa using hne)
  rw [transient_quiet data reassemble tm ts hr hs' t.1 t.2 (by rw [ht]; simp)]
  refine ⟨rfl, ?_⟩
  dsimp only
  have e1 : ∀ o ∈ headOps reassemble, o.dark := by
    intro o ho
    unfold headOps at ho
    split_ifs at ho <;> simp_all [Op.dark]
  have e2 := dark_map (data.filter SKind.isOpened) Op.open fun _ => trivial
  have e3 := dark_map (data.filter SKind.isFile) Op.close fun _ => trivial
  have e4 := dark_map (data.filter SKind.isFile) (fun s => Op.pre s (some tm.t)) fun _ => trivial
  have e5 := dark_map (data.filter SKind.isFile) (fun s => Op.post s (some t.1) t.2)
    fun _ => trivial
  rw [pictures_skip _ _ _ _ _ _ e1, pictures_skip _ _ _ _ _ _ e2,
    pictures_skip_right _ _ _ _ _ _ e3, pictures_skip _ _ _ _ _ _ e4,
    pictures_skip_right _ _ _ _ _ _ e5]
  have := steps_pictures notebook body first (data.filter SKind.isFile) (ts.map Prod.snd) 0
  simpa [lastDrawn, List.range_eq_range'] using this

/-- **C108** (each field) In a notebook a field that was drawn before the run is shown once after
every time step, with the solution of that step. -/
theorem C108_each_field [DecidableEq C] (fields : Dict String C) (hk : (fields.map Prod.fst).Nodup)
    (name : String) (c : C) (hc : (name, c) ∈ fields) (data : List SKind) (reassemble : Bool)
    (tm : Timer) (ts : List (ℚ × ℚ)) (hr : tm.run false 1 = .ok ts) (hne : ts ≠ [])
    (hs : .ngsmesh ∉ data ∧ .settings ∉ data) :
    ((pictures true (fun _ => none) (ioDraw true fields) 0
        (transientRoutine quiet data reassemble tm).trace).filter
      fun r => r.1 = Refresh.scene name c).map Prod.snd = List.range' 1 ts.length := by
  have h := (C108_transient true (fun _ => none) (some fields) data reassemble tm ts hr hne hs).2
  have e : ∀ k, lastDrawn (some fields) (fun _ => none) k = some fields := by
    intro k; simp [lastDrawn]
  rw [show ioDraw true fields = scenesOf true (some fields) from rfl, h]
  simp only [e]
  have one : (pictureRound true (some fields)).filter (fun r => r = Refresh.scene name c) =
      [Refresh.scene name c] := by
    simp only [pictureRound, if_true, List.filter_append]
    have : (fields.map fun f => Refresh.scene f.1 f.2).filter (fun r => r = Refresh.scene name c) =
        [Refresh.scene name c] := by
      clear h e hr
      induction fields with
      | nil => simp at hc
      | cons f fields ih =>
        rw [List.map_cons, List.nodup_cons] at hk
        rcases List.mem_cons.1 hc with rfl | hc
        · have none_ : (fields.map fun f => Refresh.scene f.1 f.2).filter
              (fun r => r = Refresh.scene name c) = [] := by
            rw [List.filter_eq_nil_iff]
            intro r hr
            obtain ⟨g, hg, rfl⟩ := List.mem_map.1 hr
            simp only [Refresh.scene.injEq, decide_eq_true_eq, not_and]
            intro hn
            exact absurd (List.mem_map.2 ⟨g, hg, hn⟩) hk.1
          simp [List.filter_cons, none_]
        · have hn : f.1 ≠ name := fun hn => hk.1 (List.mem_map.2 ⟨_, hc, hn.symm⟩)
          simp [List.filter_cons, hn, ih hk.2 hc]
    rw [this]
    simp
  generalize ts.length = n
  rw [List.range_eq_range', List.range'_eq_map_range, List.range'_eq_map_range]
  induction n with
  | zero => rfl
  | succ n ih =>
    rw [List.range_succ]
    simp only [List.map_append, List.flatMap_append, List.filter_append, ih]
    congr 1
    simp only [List.map_cons, List.map_nil, List.flatMap_cons, List.flatMap_nil, List.append_nil,
      List.filter_map]
    have : ((fun r : Refresh C × ℕ => decide (r.1 = Refresh.scene name c)) ∘
        fun r => (r, 0 + n + 1)) = fun r => decide (r = Refresh.scene name c) := rfl
    rw [this, one]
    simp [Nat.add_comm]

/-- **C108** (pseudo time stepping) One round of pictures per iteration and one for the result. -/
theorem C108_pseudo (first : Option (Dict String C)) (data : List SKind) (reassemble : Bool)
    (t : ℚ) (n : ℕ) (hs : .ngsmesh ∉ data ∧ .settings ∉ data) :
    (pseudoRoutine quiet data reassemble t n).result = .ok () ∧
    pictures notebook body (scenesOf notebook first) 0
        (pseudoRoutine quiet data reassemble t n).trace =
      ((List.range n).flatMap fun it => (pictureRound notebook first).map fun r => (r, it + 1)) ++
        (pictureRound notebook (lastDrawn first body 1)).map fun r => (r, n) := by
  have hs' : data.filter SKind.isSingle = [] := by
    rw [List.filter_eq_nil_iff]
    intro a ha
    cases a <;> simp [SKind.isSingle] <;> first | exact absurd ha hs.1 | exact absurd ha hs.2
  rw [pseudo_quiet data reassemble t n hs']
  refine ⟨rfl, ?_⟩
  dsimp only
  have e1 : ∀ o ∈ headOps reassemble, o.dark := by
    intro o ho
    unfold headOps at ho
    split_ifs at ho <;> simp_all [Op.dark]
  have e2 := dark_map (data.filter SKind.isOpened) Op.open fun _ => trivial
  have e3 := dark_map (data.filter SKind.isFile) Op.close fun _ => trivial
  have e4 := dark_map (data.filter SKind.isFile) (fun s => Op.pre s (some t)) fun _ => trivial
  rw [pictures_skip _ _ _ _ _ _ e1, pictures_skip _ _ _ _ _ _ e2,
    pictures_skip_right _ _ _ _ _ _ e3, pictures_skip _ _ _ _ _ _ e4]
  have h : ∀ k n, pictures notebook body (scenesOf notebook first) k ((List.range' k n).flatMap
        fun it => [Op.solve it, .update it, .iteration it, .redraw]) =
        ((List.range' k n).flatMap fun it => (pictureRound notebook first).map fun r => (r, it + 1)) ∧
      scenesAfter notebook body (scenesOf notebook first) ((List.range' k n).flatMap
        fun it => [Op.solve it, .update it, .iteration it, .redraw]) = scenesOf notebook first ∧
      updates ((List.range' k n).flatMap
        fun it => [Op.solve it, .update it, .iteration it, .redraw]) = n := by
    intro k n
    induction n generalizing k with
    | zero => exact ⟨rfl, rfl, rfl⟩
    | succ n ih =>
      obtain ⟨i1, i2, i3⟩ := ih (k + 1)
      rw [List.range'_succ, List.flatMap_cons, List.flatMap_cons]
      refine ⟨?_, ?_, ?_⟩
      · rw [pictures_append]
        have u : updates [Op.solve k, .update k, .iteration k, .redraw] = 1 := rfl
        rw [u]
        show _ ++ pictures notebook body (scenesOf notebook first) (k + 1) _ = _
        rw [i1]
        simp [pictures, redraw_round]
      · simpa [scenesAfter] using i2
      · simp only [updates] at i3 ⊢
        simp [List.filter_append, i3, Nat.add_comm]
  obtain ⟨h1, h2, h3⟩ := h 0 n
  rw [List.range_eq_range', pictures_append, h1, h2, h3, Nat.zero_add]
  congr 1
  have hd : ∀ o ∈ (data.filter SKind.isFile).map fun s => Op.inStep s t 0, o.dark :=
    dark_map _ _ fun _ => trivial
  have hp : ∀ o ∈ (data.filter SKind.isFile).map fun s => Op.post s (some t) 0, o.dark :=
    dark_map _ _ fun _ => trivial
  have hl := scenesOf_succ notebook body first 0
  rw [show lastDrawn first body 0 = first by simp [lastDrawn]] at hl
  show pictures notebook body _ n (.yield_ 0 ::
    (((data.filter SKind.isFile).map fun s => Op.inStep s t 0) ++
      (.redraw :: (data.filter SKind.isFile).map fun s => Op.post s (some t) 0))) = _
  rw [← redraw_round]
  rw [Nat.zero_add] at hl
  simp only [pictures]
  cases hb : body 0 with
  | none =>
    rw [hb] at hl
    simp only at hl ⊢
    rw [pictures_skip _ _ _ _ _ _ hd, ← hl]
    show _ ++ pictures notebook body _ n _ = _
    rw [(pictures_dark _ _ _ _ _ hp).1, List.append_nil]
  | some f =>
    rw [hb] at hl
    simp only at hl ⊢
    rw [pictures_skip _ _ _ _ _ _ hd, ← hl]
    show _ ++ pictures notebook body _ n _ = _
    rw [(pictures_dark _ _ _ _ _ hp).1, List.append_nil]

/-- **C108** (nothing drawn) Without `draw` there are no pictures, whatever the run does. -/
theorem C108_nothing_drawn (n : ℕ) (tr : List Op) :
    pictures notebook (fun _ => (none : Option (Dict String C))) none n tr = [] := by
  induction tr generalizing n with
  | nil => rfl
  | cons o tr ih => cases o <;> simpa [pictures, ioRedraw] using ih _

/-- **C108** (replay) While a recorded run is replayed there is one round of pictures per file,
showing the state of the file; fields drawn at a yield are shown from the next file on. -/
theorem C108_replay (first : Option (Dict String C)) (ts : List ℚ) :
    replayPictures notebook body (scenesOf notebook first) 0 ts =
      ts.zipIdx.flatMap fun tit =>
        (pictureRound notebook (lastDrawn first body tit.2)).map fun r => (r, tit.1) := by
  have h : ∀ k, replayPictures notebook body (scenesOf notebook (lastDrawn first body k)) k ts =
      (ts.zipIdx k).flatMap fun tit =>
        (pictureRound notebook (lastDrawn first body tit.2)).map fun r => (r, tit.1) := by
    induction ts with
    | nil => intro k; rfl
    | cons t ts ih =>
      intro k
      rw [List.zipIdx_cons, List.flatMap_cons, replayPictures, redraw_round, ← ih,
        scenesOf_succ]
      cases body k <;> rfl
  simpa [lastDrawn] using h 0

/-- Interrupted runs (helper). -/
theorem pictures_withIO {α} (O : Op → Option Exc) (data : List SKind)
    (b b0 : List SKind → List SKind → Run α) (hb : ∀ x y, Run.Below (b x y) (b0 x y))
    (s : Scenes C) (n : ℕ) :
    pictures notebook body s n (withIO O data b).trace <+:
      pictures notebook body s n (withIO quiet data b0).trace := by
  have close : ∀ (O : Op → Option Exc) (l : List SKind), ∀ o ∈ (ioClose O l).trace, o.dark := by
    intro O l o ho
    have : Run.All (fun o => ∃ s, o = .close s) (ioClose O l) :=
      Run.All.forM fun a _ => Run.All.op O ⟨_, rfl⟩
    obtain ⟨s, rfl⟩ := this o ho
    trivial
  have op0 : ∀ O : Op → Option Exc, ∀ o ∈ (ioOpen O data).trace, o.dark := by
    intro O o ho
    obtain ⟨s, rfl⟩ := ioOpen_all O data o ho
    trivial
  unfold withIO
  rcases below_ioOpen O data with e | ⟨⟨e, he⟩, hp⟩
  · have hq := op0 quiet
    rw [e]
    rw [ioOpen_ok quiet data fun _ => rfl] at hq ⊢
    simp only [Run.bind]
    rw [pictures_skip _ _ _ _ _ _ hq, pictures_skip _ _ _ _ _ _ hq,
      pictures_skip_right _ _ _ _ _ _ (close _ _), pictures_skip_right _ _ _ _ _ _ (close _ _)]
    exact pictures_prefix notebook body _ _ (hb _ _).trace
  · have : ((ioOpen O data).bind fun sf =>
      (⟨(ioClose O sf.2).result.bind fun _ => (b sf.1 sf.2).result,
        (b sf.1 sf.2).trace ++ (ioClose O sf.2).trace⟩ : Run α)).trace = (ioOpen O data).trace := by
      unfold Run.bind; rw [he]
    dsimp only
    rw [this, (pictures_dark _ _ _ _ _ (op0 O)).1]
    exact List.nil_prefix

/-- **C108** (interrupted runs) Whatever raises and wherever, the pictures are the first ones of the
undisturbed run. -/
theorem C108_interrupted (s : Scenes C) (O : Op → Option Exc) (data : List SKind)
    (reassemble : Bool) (tm : Timer) :
    pictures notebook body s 0 (transientRoutine O data reassemble tm).trace <+:
      pictures notebook body s 0 (transientRoutine quiet data reassemble tm).trace := by
  have e1 : ∀ o ∈ headOps reassemble, o.dark := by
    intro o ho
    unfold headOps at ho
    split_ifs at ho <;> simp_all [Op.dark]
  unfold transientRoutine
  rcases e : assembleIf O reassemble with ⟨er | u, tr⟩
  · have : tr = headOps reassemble := by
      unfold assembleIf op at e; unfold headOps
      split_ifs at e ⊢
      · split at e <;> simp_all
      · simp [Run.pure_def] at e
    rw [Run.error_bind, this, (pictures_dark _ _ _ _ _ e1).1]
    exact List.nil_prefix
  · have : tr = headOps reassemble := by
      unfold assembleIf op at e; unfold headOps
      split_ifs at e ⊢
      · split at e <;> simp_all
      · simp [Run.pure_def] at e; exact e
    rw [head_quiet, Run.ok_bind, this]
    dsimp only
    rw [pictures_skip _ _ _ _ _ _ e1, pictures_skip _ _ _ _ _ _ e1]
    refine pictures_withIO notebook body O data _ _ ?_ _ _
    intro a b
    refine (below_ioPre O a b _).bind fun _ => ?_
    cases tm.run false 1 with
    | error e => exact .refl _
    | ok ts =>
      refine (Run.Below.foldlM (fun (_ : Option (ℚ × ℕ)) (tit : ℚ × ℕ) =>
        (below_transientStep O b tit.2 tit.1).bind fun _ => .refl _) _ _).bind fun last => ?_
      cases last with
      | none => exact .refl _
      | some l => exact Run.Below.forM (fun s => below_op O _) _

/-- The consumer leaves the loop at the yield of iteration `k`. -/
def leaveAt (k : ℕ) (o : Op) : Option Exc := if o = .yield_ k then some .generatorExit else none

theorem forM_leaving (k : ℕ) {α : Type} (f : α → Op) (hf : ∀ a, f a ≠ .yield_ k) (l : List α) :
    (l.forM fun a => op (leaveAt k) (f a)) = (l.forM fun a => op quiet (f a)) := by
  have : (fun a => op (leaveAt k) (f a)) = fun a => op quiet (f a) := by
    funext a
    simp [op, leaveAt, quiet, hf a]
  rw [this]

theorem step_leaving (k it : ℕ) (h : it ≠ k) (file : List SKind) (t : ℚ) :
    transientStep (leaveAt k) file it t = transientStep quiet file it t := by
  have e : ∀ o, o ≠ Op.yield_ k → op (leaveAt k) o = op quiet o := by
    intro o ho
    simp [op, leaveAt, quiet, ho]
  unfold transientStep ioIn
  rw [e _ (by simp), e _ (by simp), e (.yield_ it) (by simpa using h), e .redraw (by simp),
    forM_leaving k (fun s => Op.inStep s t it) (by simp)]

theorem step_left (k : ℕ) (file : List SKind) (t : ℚ) :
    transientStep (leaveAt k) file k t =
      ⟨.error .generatorExit, [.solve k, .update k, .yield_ k]⟩ := by
  have e : ∀ o, o ≠ Op.yield_ k → op (leaveAt k) o = ⟨.ok (), [o]⟩ := by
    intro o ho
    simp [op, leaveAt, ho]
  have e' : op (leaveAt k) (.yield_ k) = ⟨.error .generatorExit, [.yield_ k]⟩ := by
    simp [op, leaveAt]
  unfold transientStep
  rw [e _ (by simp), e _ (by simp), e', Run.ok_bind, Run.ok_bind, Run.error_bind]
  rfl

theorem steps_left (file : List SKind) (k : ℕ) (l : List ℚ) (j : ℕ) (hj : j ≤ k)
    (hk : k < j + l.length) (init : Option (ℚ × ℕ)) :
    ((l.zipIdx j).foldlM (init := init) fun _ tit => do
        transientStep (leaveAt k) file tit.2 tit.1
        return some tit : Run (Option (ℚ × ℕ))) =
      ⟨.error .generatorExit, (((l.take (k - j)).zipIdx j).flatMap fun tit =>
        stepOps file tit.2 tit.1) ++ [.solve k, .update k, .yield_ k]⟩ := by
  induction l generalizing j init with
  | nil => simp at hk; omega
  | cons t l ih =>
    rw [List.zipIdx_cons, List.foldlM_cons]
    by_cases h : j = k
    · subst h
      rw [step_left, Run.error_bind, Run.error_bind]
      simp
    · rw [step_leaving k j h, transientStep_quiet, Run.ok_bind, Run.pure_def (some (t, j)),
        Run.ok_bind, ih (j + 1) (by omega) (by simp at hk; omega)]
      have : k - j = (k - (j + 1)) + 1 := by omega
      rw [this, List.take_succ_cons, List.zipIdx_cons, List.flatMap_cons]
      simp

/-- **C108** (abandoned runs) A loop that the user leaves at the yield of a step has computed this
step, but the last pictures show the step before. -/
theorem C108_abandoned (first : Option (Dict String C)) (data : List SKind) (reassemble : Bool)
    (tm : Timer) (ts : List (ℚ × ℚ)) (hr : tm.run false 1 = .ok ts) (k : ℕ) (hk : k < ts.length)
    (hs : .ngsmesh ∉ data ∧ .settings ∉ data) :
    Op.update k ∈ (transientRoutine (leaveAt k) data reassemble tm).trace ∧
    (transientRoutine (leaveAt k) data reassemble tm).result = .error .generatorExit ∧
    pictures notebook body (scenesOf notebook first) 0
        (transientRoutine (leaveAt k) data reassemble tm).trace =
      (List.range k).flatMap fun it =>
        (pictureRound notebook (lastDrawn first body (it + 1))).map fun r => (r, it + 1) := by
  have hs' : data.filter SKind.isSingle = [] := by
    rw [List.filter_eq_nil_iff]
    intro a ha
    cases a <;> simp [SKind.isSingle] <;> first | exact absurd ha hs.1 | exact absurd ha hs.2
  have e1 : ∀ o ∈ headOps reassemble, o.dark := by
    intro o ho
    unfold headOps at ho
    split_ifs at ho <;> simp_all [Op.dark]
  have e2 := dark_map (data.filter SKind.isOpened) Op.open fun _ => trivial
  have e3 := dark_map (data.filter SKind.isFile) Op.close fun _ => trivial
  have e4 := dark_map (data.filter SKind.isFile) (fun s => Op.pre s (some tm.t)) fun _ => trivial
  have ha : assembleIf (leaveAt k) reassemble = ⟨.ok (), headOps reassemble⟩ := by
    unfold assembleIf headOps
    cases reassemble
    · rfl
    · simp [op, leaveAt]
  have key : transientRoutine (leaveAt k) data reassemble tm = ⟨.error .generatorExit,
      headOps reassemble ++ ((data.filter SKind.isOpened).map Op.open ++
        (((data.filter SKind.isFile).map (fun s => Op.pre s (some tm.t)) ++
          (((((ts.map Prod.snd).take k).zipIdx).flatMap fun tit =>
            stepOps (data.filter SKind.isFile) tit.2 tit.1) ++
            [.solve k, .update k, .yield_ k])) ++
          (data.filter SKind.isFile).map Op.close))⟩ := by
    unfold transientRoutine
    rw [ha, Run.ok_bind]
    unfold withIO
    rw [ioOpen_ok (leaveAt k) data fun _ => by simp [leaveAt]]
    have hc : ioClose (leaveAt k) (data.filter SKind.isFile) =
        ⟨.ok (), (data.filter SKind.isFile).map Op.close⟩ := by
      unfold ioClose
      rw [forM_leaving k Op.close (by simp), Run.forM_quiet]
    have hp : ioPre (leaveAt k) (data.filter SKind.isSingle) (data.filter SKind.isFile) (some tm.t) =
        ⟨.ok (), (data.filter SKind.isFile).map fun s => Op.pre s (some tm.t)⟩ := by
      rw [hs', ← ioPre_quiet]
      unfold ioPre
      rw [forM_leaving k (fun s => Op.pre s (some tm.t)) (by simp)]
    simp only [Run.bind]
    rw [hc, hp, Run.ok_bind, hr]
    dsimp only
    rw [steps_left _ k (ts.map Prod.snd) 0 (Nat.zero_le _) (by simpa using hk), Run.error_bind]
    rfl
  rw [key]
  refine ⟨by simp, rfl, ?_⟩
  dsimp only
  rw [pictures_skip _ _ _ _ _ _ e1, pictures_skip _ _ _ _ _ _ e2,
    pictures_skip_right _ _ _ _ _ _ e3, pictures_skip _ _ _ _ _ _ e4]
  have hq : ∀ s n, pictures notebook body s n [.solve k, .update k, .yield_ k] = [] := by
    intro s n
    simp only [pictures]
    cases body k <;> rfl
  rw [pictures_append, hq, List.append_nil]
  have := steps_pictures notebook body first (data.filter SKind.isFile) ((ts.map Prod.snd).take k) 0
  have hl : ((ts.map Prod.snd).take k).length = k := by simp; omega
  rw [hl] at this
  simpa [lastDrawn, List.range_eq_range'] using this

/-- Two fields are drawn in a notebook, the loop draws a third one at the second of three steps: a
run with vtk output shows the two, then twice the third. -/
example :
    let tm : Timer := ⟨0, 3 / 10, 1 / 10, 0, 1⟩
    let fields : Dict String ℕ := [("p", 0), ("u", 1)]
    let body : ℕ → Option (Dict String ℕ) := fun it => if it = 1 then some [("T", 2)] else none
    pictures true body (ioDraw true fields) 0 (transientRoutine quiet [.vtk] true tm).trace =
      [(.scene "p" 0, 1), (.scene "u" 1, 1), (.viewer false, 1), (.scene "T" 2, 2),
        (.viewer false, 2), (.scene "T" 2, 3), (.viewer false, 3)] := by
  decide +kernel

end Dream
