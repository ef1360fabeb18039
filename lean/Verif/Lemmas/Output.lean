import Verif.Model.Output

/-! # Lemmas about runs, traces and records -/

namespace Dream

open Run

/-- The oracle under which nothing raises. -/
def quiet : Op → Option Exc := fun _ => none

namespace Run

theorem bind_def {α β} (r : Run α) (f : α → Run β) : r >>= f = r.bind f := rfl
theorem pure_def {α} (a : α) : (pure a : Run α) = ⟨.ok a, []⟩ := rfl

theorem ext' {α} {r r' : Run α} (h1 : r.result = r'.result) (h2 : r.trace = r'.trace) : r = r' := by
  cases r; cases r'; simp_all

instance : LawfulMonad Run := LawfulMonad.mk'
  (id_map := by
    intro α x
    rcases x with ⟨_ | _, _⟩ <;> simp [Functor.map, Run.bind, Run.pure])
  (pure_bind := by intro α β x f; simp [pure, bind, Run.bind, Run.pure])
  (bind_assoc := by
    intro α β γ x f g
    rcases x with ⟨e | a, t⟩
    · simp [bind, Run.bind]
    · simp only [bind, Run.bind]
      rcases h : (f a).result with e | b
      · simp
      · simp [List.append_assoc])

theorem ok_bind {α β} (a : α) (t : List Op) (f : α → Run β) :
    (⟨.ok a, t⟩ : Run α) >>= f = ⟨(f a).result, t ++ (f a).trace⟩ := rfl

theorem error_bind {α β} (e : Exc) (t : List Op) (f : α → Run β) :
    (⟨.error e, t⟩ : Run α) >>= f = ⟨.error e, t⟩ := rfl

theorem forM_cons' {α} (a : α) (l : List α) (f : α → Run Unit) :
    (a :: l).forM f = (f a >>= fun _ => l.forM f) := rfl

theorem forM_nil' {α} (f : α → Run Unit) : ([] : List α).forM f = pure () := rfl

theorem op_quiet (o : Op) : op quiet o = ⟨.ok (), [o]⟩ := rfl

theorem op_trace (O : Op → Option Exc) (o : Op) : (op O o).trace = [o] := by
  unfold op; split <;> rfl

theorem forM_quiet {α} (f : α → Op) (l : List α) :
    (l.forM fun s => op quiet (f s)) = ⟨.ok (), l.map f⟩ := by
  induction l with
  | nil => rfl
  | cons a l ih => rw [Run.forM_cons', ih, op_quiet, ok_bind]; rfl

theorem forM_ok {α} (l : List α) (f : α → Run Unit) (tr : α → List Op)
    (h : ∀ a ∈ l, f a = ⟨.ok (), tr a⟩) : l.forM f = ⟨.ok (), l.flatMap tr⟩ := by
  induction l with
  | nil => rfl
  | cons a l ih =>
    rw [Run.forM_cons', ih fun b hb => h b (by simp [hb]), h a (by simp), ok_bind]
    rfl

/-- `r` is `r0` or was interrupted earlier. -/
def Below {α} (r r0 : Run α) : Prop :=
  r = r0 ∨ ((∃ e, r.result = .error e) ∧ r.trace <+: r0.trace)

theorem Below.refl {α} (r : Run α) : Below r r := .inl rfl

theorem Below.trace {α} {r r0 : Run α} (h : Below r r0) : r.trace <+: r0.trace := by
  rcases h with rfl | h
  · exact List.prefix_refl _
  · exact h.2

theorem trace_prefix_bind {α β} (r : Run α) (f : α → Run β) : r.trace <+: (r >>= f).trace := by
  rcases r with ⟨e | a, t⟩
  · exact List.prefix_refl _
  · exact List.prefix_append _ _

theorem Below.bind {α β} {r r0 : Run α} {f f0 : α → Run β} (h : Below r r0)
    (hf : ∀ a, Below (f a) (f0 a)) : Below (r >>= f) (r0 >>= f0) := by
  rcases h with rfl | ⟨⟨e, he⟩, hp⟩
  · rcases r with ⟨e | a, t⟩
    · exact .inl rfl
    · rw [ok_bind, ok_bind]
      rcases hf a with h | ⟨⟨e, he⟩, hp⟩
      · rw [h]; exact .refl _
      · exact .inr ⟨⟨e, he⟩, by simpa using hp⟩
  · right
    rcases r with ⟨e' | a, t⟩
    · rw [error_bind]
      exact ⟨⟨e', rfl⟩, hp.trans (trace_prefix_bind _ _)⟩
    · simp at he

theorem below_op (O : Op → Option Exc) (o : Op) : Below (op O o) (op quiet o) := by
  unfold op
  split
  · exact .inl rfl
  · exact .inr ⟨⟨_, rfl⟩, List.prefix_refl _⟩

theorem Below.forM {α} {f f0 : α → Run Unit} (hf : ∀ a, Below (f a) (f0 a)) (l : List α) :
    Below (l.forM f) (l.forM f0) := by
  induction l with
  | nil => exact .refl _
  | cons a l ih => rw [Run.forM_cons', Run.forM_cons']; exact (hf a).bind fun _ => ih

theorem Below.foldlM {α β} {f f0 : β → α → Run β} (hf : ∀ b a, Below (f b a) (f0 b a))
    (l : List α) (b : β) : Below (l.foldlM f b) (l.foldlM f0 b) := by
  induction l generalizing b with
  | nil => exact .refl _
  | cons a l ih => rw [List.foldlM_cons, List.foldlM_cons]; exact (hf b a).bind fun _ => ih _

/-- Every operation of the run satisfies `P`. -/
def All {α} (P : Op → Prop) (r : Run α) : Prop := ∀ o ∈ r.trace, P o

theorem All.bind {α β} {P : Op → Prop} {r : Run α} {f : α → Run β} (h : All P r)
    (hf : ∀ a, All P (f a)) : All P (r >>= f) := by
  rcases r with ⟨e | a, t⟩
  · exact h
  · intro o ho
    rw [ok_bind] at ho
    rcases List.mem_append.1 ho with ho | ho
    · exact h o ho
    · exact hf a o ho

theorem All.pure {α} {P : Op → Prop} (a : α) : All P (pure a : Run α) := by
  intro o ho; simp [pure_def] at ho

theorem All.throw {α} {P : Op → Prop} (e : Exc) : All P (throw e : Run α) := by
  intro o ho; simp [Run.throw] at ho

theorem All.op {P : Op → Prop} (O : Op → Option Exc) {o : Op} (h : P o) : All P (op O o) := by
  intro o' ho; rw [op_trace] at ho; simp at ho; subst ho; exact h

theorem All.forM {α} {P : Op → Prop} {f : α → Run Unit} {l : List α} (hf : ∀ a ∈ l, All P (f a)) :
    All P (l.forM f) := by
  induction l with
  | nil => exact All.pure _
  | cons a l ih =>
    rw [Run.forM_cons']
    exact (hf a (by simp)).bind fun _ => ih fun b hb => hf b (by simp [hb])

theorem All.foldlM {α β} {P : Op → Prop} {f : β → α → Run β} (hf : ∀ b a, All P (f b a))
    (l : List α) (b : β) : All P (l.foldlM f b) := by
  induction l generalizing b with
  | nil => exact All.pure _
  | cons a l ih => rw [List.foldlM_cons]; exact (hf b a).bind fun _ => ih _

end Run

/-! ## Opening and closing -/

/-- Streams that write in time (file streams). -/
def SKind.isFile : SKind → Bool
  | .vtk | .gfu | .sensor => true
  | _ => false
/-- Streams that write once. -/
def SKind.isSingle : SKind → Bool
  | .ngsmesh | .settings => true
  | _ => false
/-- Streams that are opened. -/
def SKind.isOpened (s : SKind) : Bool := s.isFile || s.isSingle

/-- `ioOpen` when no `open` raises. -/
theorem ioOpen_ok (O : Op → Option Exc) (data : List SKind) (h : ∀ s, O (.open s) = none) :
    ioOpen O data = ⟨.ok (data.filter SKind.isSingle, data.filter SKind.isFile),
      (data.filter SKind.isOpened).map Op.open⟩ := by
  suffices H : ∀ (a b : List SKind), data.foldlM (init := (a, b)) (fun acc s =>
      match s with
      | .ngsmesh | .settings => do op O (.open s); return (acc.1 ++ [s], acc.2)
      | .vtk | .gfu | .sensor => do op O (.open s); return (acc.1, acc.2 ++ [s])
      | .log => return acc) = (⟨.ok (a ++ data.filter SKind.isSingle, b ++ data.filter SKind.isFile),
      (data.filter SKind.isOpened).map Op.open⟩ : Run _) by
    exact H [] []
  have hop : ∀ s, op O (.open s) = ⟨.ok (), [.open s]⟩ := fun s => by unfold op; rw [h s]
  induction data with
  | nil => intro a b; simp [Run.pure_def]
  | cons s l ih =>
    intro a b
    rw [List.foldlM_cons]
    cases s <;> dsimp only <;> (try rw [hop, Run.ok_bind]) <;> rw [Run.pure_def, Run.ok_bind] <;>
      (try dsimp only) <;> rw [ih] <;>
      simp [List.filter_cons, SKind.isSingle, SKind.isFile, SKind.isOpened]

/-- `ioOpen` only opens. -/
theorem ioOpen_all (O : Op → Option Exc) (data : List SKind) :
    Run.All (fun o => ∃ s, o = .open s) (ioOpen O data) := by
  unfold ioOpen
  apply Run.All.foldlM
  intro b a
  cases a <;> first
    | exact (Run.All.op O ⟨_, rfl⟩).bind fun _ => Run.All.pure _
    | exact Run.All.pure _

theorem below_ioOpen (O : Op → Option Exc) (data : List SKind) :
    Run.Below (ioOpen O data) (ioOpen quiet data) := by
  unfold ioOpen
  apply Run.Below.foldlM
  intro b a
  cases a <;> first
    | exact (Run.below_op O _).bind fun _ => .refl _
    | exact .refl _

theorem below_ioPre (O : Op → Option Exc) (a b : List SKind) (t) :
    Run.Below (ioPre O a b t) (ioPre quiet a b t) :=
  (Run.Below.refl _).bind fun _ => Run.Below.forM (fun _ => Run.below_op O _) _

theorem below_transientStep (O : Op → Option Exc) (file : List SKind) (it t) :
    Run.Below (transientStep O file it t) (transientStep quiet file it t) :=
  (Run.below_op O _).bind fun _ => (Run.below_op O _).bind fun _ => (Run.below_op O _).bind fun _ =>
    (Run.Below.forM (fun _ => Run.below_op O _) _).bind fun _ => Run.below_op O _

/-! ## Records -/

section records
variable {ρ : Type} (h : Hooks ρ) (s : SKind)

/-- Number of completed updates in a trace. -/
def updates (tr : List Op) : ℕ := (tr.filter fun o => match o with | .update _ => true | _ => false).length

theorem records_append (n : ℕ) (a b : List Op) :
    records h s n (a ++ b) = records h s n a ++ records h s (n + updates a) b := by
  induction a generalizing n with
  | nil => rfl
  | cons o a ih =>
    cases o <;> simp only [List.cons_append, records, ih, List.append_assoc, updates,
      List.filter_cons] <;> simp [Nat.add_assoc, Nat.add_comm 1]

theorem records_prefix (n : ℕ) {a b : List Op} (hp : a <+: b) :
    records h s n a <+: records h s n b := by
  obtain ⟨c, rfl⟩ := hp
  rw [records_append]
  exact List.prefix_append _ _

theorem records_silent (n : ℕ) (tr : List Op)
    (ht : ∀ o ∈ tr, (∃ s, o = .open s) ∨ (∃ s, o = .close s) ∨ o = .assemble) :
    records h s n tr = [] ∧ updates tr = 0 := by
  induction tr generalizing n with
  | nil => simp [records, updates]
  | cons o tr ih =>
    have := ih n fun o ho => ht o (by simp [ho])
    rcases ht o (by simp) with ⟨s', rfl⟩ | ⟨s', rfl⟩ | rfl <;>
      simpa [records, updates, List.filter_cons] using this

theorem records_pre (n : ℕ) (l : List SKind) (t) (hl : l.Nodup) :
    records h s n (l.map fun s => Op.pre s t) = (if s ∈ l then h.pre t n else []) ∧
      updates (l.map fun s => Op.pre s t) = 0 := by
  induction l with
  | nil => simp [records, updates]
  | cons a l ih =>
    obtain ⟨h1, h2⟩ := List.nodup_cons.1 hl
    obtain ⟨e1, e2⟩ := ih h2
    refine ⟨?_, by simp [updates]⟩
    rw [List.map_cons, records, e1]
    by_cases ha : a = s
    · subst ha; simp [h1]
    · have : ¬ s = a := fun e => ha e.symm
      simp [ha, this]

theorem records_inStep (n : ℕ) (l : List SKind) (t it) (hl : l.Nodup) :
    records h s n (l.map fun s => Op.inStep s t it) = (if s ∈ l then h.inStep t it n else []) ∧
      updates (l.map fun s => Op.inStep s t it) = 0 := by
  induction l with
  | nil => simp [records, updates]
  | cons a l ih =>
    obtain ⟨h1, h2⟩ := List.nodup_cons.1 hl
    obtain ⟨e1, e2⟩ := ih h2
    refine ⟨?_, by simp [updates]⟩
    rw [List.map_cons, records, e1]
    by_cases ha : a = s
    · subst ha; simp [h1]
    · have : ¬ s = a := fun e => ha e.symm
      simp [ha, this]

theorem records_post (n : ℕ) (l : List SKind) (t it) (hl : l.Nodup) :
    records h s n (l.map fun s => Op.post s t it) = (if s ∈ l then h.post t it n else []) ∧
      updates (l.map fun s => Op.post s t it) = 0 := by
  induction l with
  | nil => simp [records, updates]
  | cons a l ih =>
    obtain ⟨h1, h2⟩ := List.nodup_cons.1 hl
    obtain ⟨e1, e2⟩ := ih h2
    refine ⟨?_, by simp [updates]⟩
    rw [List.map_cons, records, e1]
    by_cases ha : a = s
    · subst ha; simp [h1]
    · have : ¬ s = a := fun e => ha e.symm
      simp [ha, this]

end records

/-! ## The undisturbed transient run -/

/-- The operations of one time step. -/
def stepOps (file : List SKind) (it : ℕ) (t : ℚ) : List Op :=
  [.solve it, .update it, .yield_ it] ++ (file.map fun s => Op.inStep s t it) ++ [.redraw]

theorem transientStep_quiet (file : List SKind) (it t) :
    transientStep quiet file it t = ⟨.ok (), stepOps file it t⟩ := by
  unfold transientStep ioIn stepOps
  rw [Run.forM_quiet]
  simp only [Run.op_quiet, Run.ok_bind]
  simp

theorem steps_quiet (file : List SKind) (l : List (ℚ × ℕ)) (init : Option (ℚ × ℕ)) :
    (l.foldlM (init := init) fun _ tit => do
        transientStep quiet file tit.2 tit.1
        return some tit) =
      (⟨.ok (l.getLast?.or init), l.flatMap fun tit => stepOps file tit.2 tit.1⟩ :
        Run (Option (ℚ × ℕ))) := by
  induction l generalizing init with
  | nil => rfl
  | cons a l ih =>
    rw [List.foldlM_cons, transientStep_quiet, Run.ok_bind]
    rw [Run.pure_def (some a), Run.ok_bind]
    simp only [List.append_nil]
    rw [ih]
    simp only [List.flatMap_cons, Run.mk.injEq, and_true]
    cases l with
    | nil => simp
    | cons b l => simp [List.getLast?_cons]

theorem ioPre_quiet (file : List SKind) (t) :
    ioPre quiet [] file t = ⟨.ok (), file.map fun s => Op.pre s t⟩ := by
  unfold ioPre
  rw [Run.forM_nil', Run.forM_quiet]
  rfl

theorem ioPre_single (O : Op → Option Exc) (a : SKind) (l file : List SKind) (t) :
    ioPre O (a :: l) file t = ⟨.error (.py .typeError), []⟩ := by
  unfold ioPre
  rw [Run.forM_cons']
  rfl

/-- A `with` block whose `open`, body and `close` do not raise. -/
theorem withIO_quiet {α} (data : List SKind) (body : List SKind → List SKind → Run α) (a : α)
    (tr : List Op) (h : body (data.filter SKind.isSingle) (data.filter SKind.isFile) = ⟨.ok a, tr⟩) :
    withIO quiet data body = ⟨.ok a, (data.filter SKind.isOpened).map Op.open ++ (tr ++
      (data.filter SKind.isFile).map Op.close)⟩ := by
  unfold withIO
  rw [ioOpen_ok quiet data fun _ => rfl]
  simp only [Run.bind, h, ioClose]
  rw [Run.forM_quiet]
  rfl

/-- The operations before the `with` block. -/
def headOps (reassemble : Bool) : List Op := if reassemble then [.assemble] else []

theorem head_quiet {α} (reassemble : Bool) (r : Run α) :
    (do assembleIf quiet reassemble; r : Run α) =
      ⟨r.result, headOps reassemble ++ r.trace⟩ := by
  cases reassemble
  · simp only [assembleIf, headOps, Bool.false_eq_true, if_false]
    rfl
  · simp only [assembleIf, headOps, if_true, Run.op_quiet]
    rfl

/-- The undisturbed transient run. -/
theorem transient_quiet (data : List SKind) (reassemble : Bool) (tm : Timer) (ts : List (ℚ × ℚ))
    (h : tm.run false 1 = .ok ts) (hs : data.filter SKind.isSingle = []) (t : ℚ) (it : ℕ)
    (hl : (ts.map Prod.snd).zipIdx.getLast? = some (t, it)) :
    transientRoutine quiet data reassemble tm = ⟨.ok (), headOps reassemble ++
      ((data.filter SKind.isOpened).map Op.open ++
      (((data.filter SKind.isFile).map (fun s => Op.pre s (some tm.t)) ++
        (((ts.map Prod.snd).zipIdx.flatMap fun tit => stepOps (data.filter SKind.isFile) tit.2 tit.1) ++
        (data.filter SKind.isFile).map (fun s => Op.post s (some t) it))) ++
      (data.filter SKind.isFile).map Op.close))⟩ := by
  unfold transientRoutine
  rw [head_quiet]
  rw [withIO_quiet data _ ()]
  rw [hs, ioPre_quiet, Run.ok_bind, h]
  dsimp only
  rw [steps_quiet, Run.ok_bind, hl]
  simp only [Option.some_or, ioPost]
  rw [Run.forM_quiet]

theorem stepOps_records {ρ} (h : Hooks ρ) (s : SKind) (file : List SKind) (hf : file.Nodup)
    (hs : s ∈ file) (n it : ℕ) (t : ℚ) :
    records h s n (stepOps file it t) = h.inStep t it (n + 1) ∧ updates (stepOps file it t) = 1 := by
  have := records_inStep h s (n + 1) file t it hf
  unfold stepOps
  constructor
  · rw [records_append, records_append]
    simp [records, updates, this.1, hs]
  · simp [updates, List.filter_append]

theorem steps_records {ρ} (h : Hooks ρ) (s : SKind) (file : List SKind) (hf : file.Nodup)
    (hs : s ∈ file) (l : List ℚ) (n : ℕ) :
    records h s n ((l.zipIdx n).flatMap fun tit => stepOps file tit.2 tit.1) =
      ((l.zipIdx n).flatMap fun tit => h.inStep tit.1 tit.2 (tit.2 + 1)) ∧
    updates ((l.zipIdx n).flatMap fun tit => stepOps file tit.2 tit.1) = l.length := by
  induction l generalizing n with
  | nil => simp [records, updates]
  | cons a l ih =>
    obtain ⟨e1, e2⟩ := stepOps_records h s file hf hs n n a
    obtain ⟨i1, i2⟩ := ih (n + 1)
    rw [List.zipIdx_cons, List.flatMap_cons, List.flatMap_cons, records_append, e1, e2, i1]
    refine ⟨rfl, ?_⟩
    have : ∀ a b : List Op, updates (a ++ b) = updates a + updates b := by
      intro a b; simp [updates]
    rw [this, e2, i2, List.length_cons, Nat.add_comm]

/-- The records of a stream in the undisturbed transient run. -/
theorem transient_records {ρ} (h : Hooks ρ) (s : SKind) (data : List SKind) (reassemble : Bool)
    (tm : Timer) (ts : List (ℚ × ℚ)) (hr : tm.run false 1 = .ok ts) (hd : data.Nodup)
    (hs : data.filter SKind.isSingle = []) (hsd : s ∈ data) (hsf : s.isFile = true) (t : ℚ) (it : ℕ)
    (hl : (ts.map Prod.snd).zipIdx.getLast? = some (t, it)) :
    records h s 0 (transientRoutine quiet data reassemble tm).trace =
      h.pre (some tm.t) 0 ++
      ((ts.map Prod.snd).zipIdx.flatMap fun tit => h.inStep tit.1 tit.2 (tit.2 + 1)) ++
      h.post (some t) it ts.length := by
  rw [transient_quiet data reassemble tm ts hr hs t it hl]
  have hf : (data.filter SKind.isFile).Nodup := hd.filter _
  have hm : s ∈ data.filter SKind.isFile := by simp [hsd, hsf]
  have u : ∀ a b : List Op, updates (a ++ b) = updates a + updates b := by
    intro a b; simp [updates]
  have h0 := records_silent h s 0 (headOps reassemble ++ (data.filter SKind.isOpened).map Op.open) (by
    intro o ho
    rcases List.mem_append.1 ho with ho | ho
    · right; right
      unfold headOps at ho; split_ifs at ho <;> simp_all
    · left; simp at ho; obtain ⟨a, _, rfl⟩ := ho; exact ⟨_, rfl⟩)
  have h1 := fun n => records_silent h s n ((data.filter SKind.isFile).map Op.close) (by
    intro o ho
    right; left; simp at ho; obtain ⟨a, _, rfl⟩ := ho; exact ⟨_, rfl⟩)
  have h2 := records_pre h s 0 _ (some tm.t) hf
  have h3 := steps_records h s _ hf hm (ts.map Prod.snd) 0
  have h4 := fun n => records_post h s n _ (some t) it hf
  dsimp only
  rw [← List.append_assoc, records_append, h0.1, h0.2, List.nil_append, Nat.zero_add,
    records_append, (h1 _).1, List.append_nil, records_append, h2.1, h2.2, if_pos hm,
    records_append, Nat.zero_add, h3.1, h3.2, (h4 _).1, if_pos hm, Nat.zero_add, List.length_map,
    List.append_assoc]

/-! ## Interrupted runs -/

/-- The records of an interrupted `with` block are a prefix of those of the undisturbed one. -/
theorem below_withIO {α ρ} (h : Hooks ρ) (s : SKind) (O : Op → Option Exc) (data : List SKind)
    (body body0 : List SKind → List SKind → Run α) (hb : ∀ a b, Run.Below (body a b) (body0 a b))
    (n : ℕ) : records h s n (withIO O data body).trace <+:
      records h s n (withIO quiet data body0).trace := by
  unfold withIO
  have close : ∀ (O : Op → Option Exc) (l : List SKind) (n : ℕ),
      records h s n (ioClose O l).trace = [] := fun O l n =>
    (records_silent h s n _ fun o ho => by
      right; left
      have : Run.All (fun o => ∃ s, o = .close s) (ioClose O l) :=
        Run.All.forM fun a _ => Run.All.op O ⟨_, rfl⟩
      exact this o ho).1
  have op0 := fun (O : Op → Option Exc) (n : ℕ) => records_silent h s n (ioOpen O data).trace
    (fun o ho => Or.inl (ioOpen_all O data o ho))
  rcases below_ioOpen O data with e | ⟨⟨e, he⟩, hp⟩
  · rw [e, ioOpen_ok quiet data fun _ => rfl]
    simp only [Run.bind]
    rw [records_append, records_append]
    simp only [records_append, close, List.append_nil]
    exact (List.prefix_append_right_inj _).2 (records_prefix h s _ (hb _ _).trace)
  · have : ((ioOpen O data).bind fun sf =>
      (⟨(ioClose O sf.2).result.bind fun _ => (body sf.1 sf.2).result,
        (body sf.1 sf.2).trace ++ (ioClose O sf.2).trace⟩ : Run α)).trace = (ioOpen O data).trace := by
      unfold Run.bind; rw [he]
    dsimp only
    rw [this, (op0 O n).1]
    exact List.nil_prefix

end Dream
