import Verif.Model.Parameter
import Verif.Lemmas.Dict

/-!
# C20: parameters keep their identity
-/

namespace Dream
variable {α : Type}

namespace Params

theorem assign_data (fset : String → α → Except PyErr α) (σ : Params α) (n : String)
    (a : ParamArg α) : ((σ.assign fset n a).2).data = σ.data := by
  simp only [assign]
  split
  · rfl
  · split
    · rfl
    · split <;> rfl

theorem step_data (fset : String → α → Except PyErr α) (σ : Params α) (o : ParamOp α) :
    (σ.step fset o).data = σ.data := by
  cases o with
  | assign n a => exact assign_data fset σ n a
  | create v => rfl
  | setObject r v => rfl

end Params

/-- **C20** Whatever the user assigns, creates or sets, every option keeps referring to the same
object. -/
theorem C20_identity (fset : String → α → Except PyErr α) (σ : Params α)
    (h : List (ParamOp α)) (n : String) : (σ.run fset h).object n = σ.object n := by
  unfold Params.object
  have : (σ.run fset h).data = σ.data := by
    induction h generalizing σ with
    | nil => rfl
    | cons o h ih => exact (ih _).trans (Params.step_data fset σ o)
  rw [this]

/-- The number an assigned value stands for. -/
def Spec.argValue (σ : Params α) : ParamArg α → Option α
  | .number v => some v
  | .param r => σ.valueAt r

/-- **C20** An accepted assignment of a number, or of a parameter object with that value,
changes the value of the option's object to what the setter returned, and of no other object;
a rejected one changes nothing. -/
theorem C20_assign (fset : String → α → Except PyErr α) (σ : Params α) (n : String)
    (a : ParamArg α) :
    (∀ e, (σ.assign fset n a).1 = .error e → (σ.assign fset n a).2 = σ) ∧
    ((σ.assign fset n a).1 = .ok () → ∃ v w r, Spec.argValue σ a = some v ∧ fset n v = .ok w ∧
      σ.object n = some r ∧
      (r < σ.cells.length → (σ.assign fset n a).2.valueAt r = some w) ∧
      ∀ r' ≠ r, (σ.assign fset n a).2.valueAt r' = σ.valueAt r') := by
  have ev : σ.read a = Spec.argValue σ a := by cases a <;> rfl
  cases hv : Spec.argValue σ a with
  | none =>
    have : σ.assign fset n a = (.error .attributeError, σ) := by
      simp only [Params.assign]
      rw [ev, hv]
    rw [this]
    exact ⟨fun _ _ => rfl, fun h => by cases h⟩
  | some v =>
    cases hw : fset n v with
    | error e =>
      have : σ.assign fset n a = (.error e, σ) := by
        simp only [Params.assign]
        rw [ev, hv]
        simp only [hw]
      rw [this]
      exact ⟨fun _ _ => rfl, fun h => by cases h⟩
    | ok w =>
      cases hr : σ.data.get? n with
      | none =>
        have : σ.assign fset n a = (.error .keyError, σ) := by
          simp only [Params.assign]
          rw [ev, hv]
          simp only [hw, hr]
        rw [this]
        exact ⟨fun _ _ => rfl, fun h => by cases h⟩
      | some r =>
        have : σ.assign fset n a = (.ok (), { σ with cells := σ.cells.set r w }) := by
          simp only [Params.assign]
          rw [ev, hv]
          simp only [hw, hr]
        rw [this]
        refine ⟨fun _ h => by (cases h), fun _ => ⟨v, w, r, rfl, hw, hr, fun hl => ?_, fun r' h => ?_⟩⟩
        · simp [Params.valueAt, List.getElem?_set_self hl]
        · simp [Params.valueAt, List.getElem?_set_ne h.symm]

/-- Every option refers to an existing object, and different options to different objects. -/
def Params.WF (σ : Params α) : Prop :=
  (∀ n r, σ.object n = some r → r < σ.cells.length) ∧
  ∀ n n' r, σ.object n = some r → σ.object n' = some r → n = n'

theorem Params.wf_reset {fset : String → α → Except PyErr α} {σ : Params α} (h : σ.WF)
    (n : String) (d : α) : (σ.reset fset n d).2.WF := by
  unfold Params.reset
  cases hd : fset n d with
  | error e => exact h
  | ok w =>
    obtain ⟨h1, h2⟩ := h
    refine ⟨fun m r hr => ?_, fun m m' r hr hr' => ?_⟩
    · simp only [Params.object, Dict.get?_set] at hr
      simp only [List.length_append, List.length_singleton]
      split_ifs at hr
      · cases hr; omega
      · exact (h1 m r hr).trans (Nat.lt_succ_self _)
    · simp only [Params.object, Dict.get?_set] at hr hr'
      split_ifs at hr hr' with c1 c2 c2
      · rw [c1, c2]
      · cases hr
        exact absurd (h1 m' _ hr') (lt_irrefl _)
      · cases hr'
        exact absurd (h1 m _ hr) (lt_irrefl _)
      · exact h2 m m' r hr hr'

theorem Params.wf_init (fset : String → α → Except PyErr α) (defaults : List (String × α)) :
    (Params.init fset defaults).WF := by
  have key : ∀ (l : List (String × α)) (σ : Params α), σ.WF →
      (l.foldl (fun σ d => (σ.reset fset d.1 d.2).2) σ).WF := by
    intro l
    induction l with
    | nil => exact fun _ h => h
    | cons d l ih => exact fun σ h => ih _ (Params.wf_reset h _ _)
  refine key _ _ ⟨fun n r h => ?_, fun n n' r h => ?_⟩ <;> simp [Params.object, Dict.get?] at h

theorem Params.wf_step {fset : String → α → Except PyErr α} {σ : Params α} (h : σ.WF)
    (o : ParamOp α) : (σ.step fset o).WF := by
  have hd := Params.step_data fset σ o
  have hl : σ.cells.length ≤ (σ.step fset o).cells.length := by
    cases o with
    | assign n a =>
      simp only [Params.step, Params.assign]
      split
      · exact le_refl _
      · split
        · exact le_refl _
        · split <;> simp
    | create v => simp [Params.step]
    | setObject r v => simp [Params.step]
  refine ⟨fun n r hr => ?_, fun n n' r hr hr' => ?_⟩
  · rw [Params.object, hd] at hr
    exact (h.1 n r hr).trans_le hl
  · rw [Params.object, hd] at hr hr'
    exact h.2 n n' r hr hr'

/-- The last accepted number in a history of assignments to option `n`, starting from `v`. -/
def Spec.lastAccepted (fset : String → α → Except PyErr α) (n : String) :
    List (String × α) → α → α
  | [], v => v
  | (m, x) :: h, v => Spec.lastAccepted fset n h
      (if m = n then (match fset n x with | .ok w => w | .error _ => v) else v)

/-- **C20** After any history of assignments of numbers, an expression that was built with the
option's object before the history evaluates with the last accepted number. -/
theorem C20_history (fset : String → α → Except PyErr α) (defaults : List (String × α))
    (h0 : List (ParamOp α)) (h : List (String × α)) (n : String) (r : ℕ) (v : α)
    (hr : ((Params.init fset defaults).run fset h0).object n = some r)
    (hv : ((Params.init fset defaults).run fset h0).valueAt r = some v) :
    ((((Params.init fset defaults).run fset h0).run fset
      (h.map fun e => .assign e.1 (.number e.2))).valueAt r) =
        some (Spec.lastAccepted fset n h v) := by
  have wf : ((Params.init fset defaults).run fset h0).WF := by
    have : ∀ (l : List (ParamOp α)) (σ : Params α), σ.WF → (σ.run fset l).WF := by
      intro l
      induction l with
      | nil => exact fun _ h => h
      | cons o l ih => exact fun σ h => ih _ (Params.wf_step h o)
    exact this _ _ (Params.wf_init fset defaults)
  generalize (Params.init fset defaults).run fset h0 = σ at hr hv wf ⊢
  induction h generalizing σ v with
  | nil => exact hv
  | cons e h ih =>
    obtain ⟨m, x⟩ := e
    simp only [List.map_cons]
    show ((σ.step fset (.assign m (.number x))).run fset _).valueAt r = _
    unfold Spec.lastAccepted
    refine ih _ (σ.step fset (.assign m (.number x))) ?_ ?_ (Params.wf_step wf _)
    · rw [Params.object, Params.step_data]
      exact hr
    · have hlen := wf.1 n r hr
      by_cases hm : m = n
      · subst hm
        have hr' : σ.data.get? m = some r := hr
        cases hf : fset m x with
        | error e => simpa [Params.step, Params.assign, Params.read, hf] using hv
        | ok w =>
          simp [Params.step, Params.assign, Params.read, hf, hr', Params.valueAt, List.getElem?_set_self hlen]
      · rw [if_neg hm]
        cases hf : fset m x with
        | error e => simpa [Params.step, Params.assign, Params.read, hf] using hv
        | ok w =>
          cases hg : σ.data.get? m with
          | none => simpa [Params.step, Params.assign, Params.read, hf, hg] using hv
          | some r' =>
            have hne : r' ≠ r := fun h => hm (wf.2 m n r (h ▸ hg) hr)
            simpa [Params.step, Params.assign, Params.read, hf, hg, Params.valueAt,
              List.getElem?_set_ne hne] using hv

/-- **C20** Assigning a parameter object copies its value: changing that object later does not
change the option. -/
theorem C20_copied (fset : String → α → Except PyErr α) (σ : Params α) (hσ : σ.WF) (n : String)
    (p r : ℕ) (hr : σ.object n = some r) (hp : p ≠ r) (x w v : α) (hx : σ.valueAt p = some x)
    (hw : fset n x = .ok w) :
    (((σ.assign fset n (.param p)).2.step fset (.setObject p v)).valueAt r) = some w := by
  have hx' : σ.cells[p]? = some x := hx
  have hr' : σ.data.get? n = some r := hr
  simp [Params.step, Params.valueAt, List.getElem?_set_ne hp, Params.assign, Params.read, hx', hw,
    hr', List.getElem?_set_self (hσ.1 n r hr)]

/-- **C20** A reset makes the option refer to a new object; objects referred to by earlier
expressions keep their values, and no later assignment to an option changes them unless another option refers to
them. -/
theorem C20_reset (fset : String → α → Except PyErr α) (σ : Params α) (hσ : σ.WF) (n : String)
    (d w : α) (hd : fset n d = .ok w) (r : ℕ) (hr : σ.object n = some r)
    (h : List (String × ParamArg α)) :
    (∃ r', (σ.reset fset n d).2.object n = some r' ∧ r' ≠ r ∧
      (σ.reset fset n d).2.valueAt r' = some w) ∧
    ((σ.reset fset n d).2.run fset (h.map fun e => .assign e.1 e.2)).valueAt r = σ.valueAt r := by
  have hlt := hσ.1 n r hr
  have e : (σ.reset fset n d).2 =
      { cells := σ.cells ++ [w], data := σ.data.set n σ.cells.length } := by
    simp [Params.reset, hd]
  refine ⟨⟨σ.cells.length, ?_, by omega, ?_⟩, ?_⟩
  · rw [e]; simp [Params.object, Dict.get?_set]
  · rw [e]; simp [Params.valueAt]
  · have h0 : (σ.reset fset n d).2.valueAt r = σ.valueAt r := by
      rw [e]; simp [Params.valueAt, List.getElem?_append_left hlt]
    have hfree : ∀ m, (σ.reset fset n d).2.object m ≠ some r := by
      intro m hm
      rw [e] at hm
      simp only [Params.object, Dict.get?_set] at hm
      split_ifs at hm with hc
      · cases hm; exact lt_irrefl _ hlt
      · exact hc (hσ.2 m n r hm hr)
    rw [← h0]
    generalize (σ.reset fset n d).2 = τ at hfree
    induction h generalizing τ with
    | nil => rfl
    | cons x h ih =>
      refine (ih (τ.step fset (.assign x.1 x.2)) ?_).trans ?_
      · intro m
        rw [Params.object, Params.step_data]
        exact hfree m
      · have := C20_assign fset τ x.1 x.2
        show (τ.assign fset x.1 x.2).2.valueAt r = _
        cases hres : (τ.assign fset x.1 x.2).1 with
        | error e => rw [this.1 e hres]
        | ok u =>
          obtain ⟨_, _, r', _, _, h3, _, h4⟩ := this.2 hres
          exact h4 r fun hh => hfree x.1 (hh ▸ h3)

/-- **C20 fails**: the object of an option is handed out, and setting it directly skips the
setter, so that a refused value can get in. -/
theorem C20_fails_unchecked (fset : String → α → Except PyErr α) (σ : Params α) (hσ : σ.WF)
    (n : String) (r : ℕ) (hr : σ.object n = some r) (v : α) (e : PyErr) (hv : fset n v = .error e) :
    (σ.assign fset n (.number v)).1 = .error e ∧
    (σ.step fset (.setObject r v)).valueAt r = some v := by
  refine ⟨by simp [Params.assign, Params.read, hv], ?_⟩
  simp [Params.step, Params.valueAt, List.getElem?_set_self (hσ.1 n r hr)]

/-- Non-vacuity: two options, a history with a rejected assignment. -/
example : ∃ (fset : String → ℤ → Except PyErr ℤ) (d : List (String × ℤ)),
    ((Params.init fset d).run fset [.create 5]).object "mach" = some 0 ∧
    ((Params.init fset d).run fset [.create 5]).valueAt 0 = some 1 ∧
    Spec.lastAccepted fset "mach" [("mach", 2), ("re", 3), ("mach", -1)] 1 = 2 :=
  ⟨fun _ v => if v < 0 then .error .valueError else .ok v, [("mach", 1), ("re", 7)],
    by decide +kernel, by decide +kernel, by decide +kernel⟩

end Dream
