import Verif.Model.SettingsText
import Verif.Spec.TextLines
import Mathlib.Data.List.Basic

/-!
# C119: the text of the settings file
-/

namespace Dream
open Spec

theorem linesOf_ne (s : Txt) : linesOf s ≠ [] := by
  cases s with
  | nil => simp [linesOf]
  | cons c s => simp only [linesOf]; split_ifs <;> [simp; (split <;> simp)]

theorem linesOf_append (x y : Txt) : linesOf (x ++ '\n' :: y) = linesOf x ++ linesOf y := by
  induction x with
  | nil => simp [linesOf]
  | cons c x ih =>
    simp only [List.cons_append, linesOf, ih]
    by_cases h : c = '\n'
    · simp [h]
    · rw [if_neg h, if_neg h]
      rcases h' : linesOf x with _ | ⟨l, ls⟩
      · exact absurd h' (linesOf_ne x)
      · rfl

theorem linesOf_line (x : Txt) (h : '\n' ∉ x) : linesOf x = [x] := by
  induction x with
  | nil => rfl
  | cons c x ih =>
    have hc : c ≠ '\n' := fun e => h (by simp [e])
    simp only [linesOf, if_neg hc, ih fun e => h (List.mem_cons_of_mem _ e)]

theorem linesOf_join (l : List Txt) (h : l ≠ []) : linesOf (joinLines l) = l.flatMap linesOf := by
  induction l with
  | nil => exact absurd rfl h
  | cons x l ih =>
    cases l with
    | nil => simp [joinLines]
    | cons y l =>
      rw [joinLines, linesOf_append, ih (by simp)]
      rfl

theorem flatMap_lines (l : List Txt) (h : ∀ x ∈ l, '\n' ∉ x) : l.flatMap linesOf = l := by
  induction l with
  | nil => rfl
  | cons x l ih =>
    rw [List.flatMap_cons, linesOf_line x (h x (by simp)), ih fun y hy => h y (by simp [hy])]
    rfl

theorem join_lines (s : Txt) : joinLines (linesOf s) = s := by
  induction s with
  | nil => rfl
  | cons c s ih =>
    simp only [linesOf]
    rcases h : linesOf s with _ | ⟨l, ls⟩
    · exact absurd h (linesOf_ne s)
    · rw [h] at ih
      split_ifs with hc
      · rw [joinLines, ih, hc]; rfl
      · cases ls with
        | nil => simp only [joinLines] at ih ⊢; rw [ih]
        | cons a ls => simp only [joinLines] at ih ⊢; rw [← ih]; rfl

theorem last_split {α : Type} {x : α} {A A' B B' : List α} (h : A ++ x :: B = A' ++ x :: B')
    (hB : x ∉ B) (hB' : x ∉ B') : A = A' ∧ B = B' := by
  rcases List.append_eq_append_iff.1 h with ⟨C, h1, h2⟩ | ⟨C, h1, h2⟩
  · cases C with
    | nil => simp only [List.nil_append, List.cons.injEq, true_and] at h2; simp [h1, h2]
    | cons c C =>
      simp only [List.cons_append, List.cons.injEq] at h2
      exact absurd (by rw [h2.2]; simp) hB
  · cases C with
    | nil => simp only [List.nil_append, List.cons.injEq, true_and] at h2; simp [h1, h2]
    | cons c C =>
      simp only [List.cons_append, List.cons.injEq] at h2
      exact absurd (by rw [h2.2]; simp) hB'

theorem first_split {α : Type} {x : α} {A A' B B' : List α} (h : A ++ x :: B = A' ++ x :: B')
    (hA : x ∉ A) (hA' : x ∉ A') : A = A' ∧ B = B' := by
  rcases List.append_eq_append_iff.1 h with ⟨C, h1, h2⟩ | ⟨C, h1, h2⟩
  · cases C with
    | nil => simp only [List.nil_append, List.cons.injEq, true_and] at h2; simp [h1, h2]
    | cons c C =>
      simp only [List.cons_append, List.cons.injEq] at h2
      exact absurd (by rw [h1, h2.1]; simp) hA'
  · cases C with
    | nil => simp only [List.nil_append, List.cons.injEq, true_and] at h2; simp [h1, h2]
    | cons c C =>
      simp only [List.cons_append, List.cons.injEq] at h2
      exact absurd (by rw [h1, h2.1]; simp) hA

theorem mapM_some (l : List Txt) : (l.map some).mapM id = some l := by
  induction l with
  | nil => rfl
  | cons x l ih => simp [List.mapM_cons, ih]

theorem mapM_none (l : List (Option Txt)) (h : none ∈ l) : l.mapM id = none := by
  induction l with
  | nil => simp at h
  | cons x l ih =>
    cases x with
    | none => simp [List.mapM_cons]
    | some x =>
      have : none ∈ l := by simpa using h
      simp [List.mapM_cons, ih this]

theorem refused_doc (x : DocArg) (st st' : DocState) :
    ((setDocumentation x st).1 = .ok () → (setDocumentation x st).2 = (setDocumentation x st').2) ∧
    ((setDocumentation x st).1 ≠ .ok () → (setDocumentation x st).2 = st) ∧
    (setDocumentation x st).1 = (setDocumentation x st').1 := by
  cases x with
  | str s => simp [setDocumentation]
  | seq l => simp only [setDocumentation]; cases l.mapM id <;> simp
  | other => simp [setDocumentation]

/-- **C119** A string is accepted as it is, a sequence of strings as its lines; a sequence with
anything else in it is refused with `TypeError`, other objects with `ValueError`. Whatever was passed
before and refused afterwards, the documentation is the one accepted last, and without one there is
none. -/
theorem C119_documentation :
    (∀ s st, setDocumentation (.str s) st = (.ok (), some s)) ∧
    (∀ (l : List Txt) st, l ≠ [] → (∀ x ∈ l, '\n' ∉ x) → ∃ d,
      setDocumentation (.seq (l.map some)) st = (.ok (), some d) ∧ linesOf d = l) ∧
    (∀ (l : List (Option Txt)) st, none ∈ l →
      setDocumentation (.seq l) st = (.error .typeError, st)) ∧
    (∀ st, setDocumentation .other st = (.error .valueError, st)) ∧
    (∀ (h₁ h₂ : List DocArg) (x : DocArg) st, (setDocumentation x none).1 = .ok () →
      (∀ y ∈ h₂, (setDocumentation y none).1 ≠ .ok ()) →
      documented (h₁ ++ x :: h₂) st = (setDocumentation x none).2) ∧
    (∀ (h : List DocArg) st, (∀ y ∈ h, (setDocumentation y none).1 ≠ .ok ()) →
      documented h st = st) := by
  have hno : ∀ (h : List DocArg) st, (∀ y ∈ h, (setDocumentation y none).1 ≠ .ok ()) →
      documented h st = st := by
    intro h
    induction h with
    | nil => intro st _; rfl
    | cons y h ih =>
      intro st hy
      have e : (setDocumentation y st).2 = st := (refused_doc y st none).2.1
        (by rw [(refused_doc y st none).2.2]; exact hy y (by simp))
      show documented h (setDocumentation y st).2 = st
      rw [e]
      exact ih st fun z hz => hy z (by simp [hz])
  refine ⟨fun s st => rfl, fun l st hl hn => ⟨joinLines l, ?_, ?_⟩, fun l st h => ?_, fun st => rfl,
    fun h₁ h₂ x st hx hy => ?_, hno⟩
  · simp only [setDocumentation, mapM_some]
  · rw [linesOf_join l hl, flatMap_lines l hn]
  · simp only [setDocumentation, mapM_none l h]
  · have e : documented (h₁ ++ x :: h₂) st
        = documented h₂ (setDocumentation x (documented h₁ st)).2 := by
      simp [documented, List.foldl_append]
    rw [e, hno h₂ _ hy]
    exact (refused_doc x _ none).1 (by rw [(refused_doc x _ none).2.2]; exact hx)

/-- An entry as it is printed. -/
def entryLine (e : Txt × Txt) : Txt := e.1 ++ ": ".toList ++ e.2

theorem ack_lines (date : Txt) (h : '\n' ∉ date) : ∀ x ∈ ackLines date, '\n' ∉ x := by
  intro x hx
  simp only [ackLines, List.mem_cons, List.not_mem_nil, or_false] at hx
  rcases hx with rfl | rfl | rfl | rfl | rfl | rfl | rfl | rfl | rfl | rfl | rfl | rfl | rfl | rfl
    | rfl | rfl | rfl
  case _ => decide
  all_goals first
    | decide
    | (rw [List.mem_append, not_or]; exact ⟨by decide, h⟩)

/-- **C119** The lines of the file: acknowledgements with the date, the documentation, if there is
one, under its header, and one line for every option under the header of the configuration. -/
theorem C119_text (date : Txt) (doc : DocState) (es : List (Txt × Txt)) (hd : '\n' ∉ date)
    (hes : es ≠ []) (he : ∀ e ∈ es, '\n' ∉ e.1 ∧ '\n' ∉ e.2) :
    linesOf (settingsText date doc es) = ackLines date ++ [[]]
      ++ (match doc with
          | some d => header "Documentation".toList :: linesOf d ++ [[]]
          | none => [])
      ++ header "Configuration".toList :: (es.map entryLine ++ [[]]) := by
  have h1 : linesOf (acknowledgements date) = ackLines date := by
    rw [acknowledgements, linesOf_join _ (by simp [ackLines]), flatMap_lines _ (ack_lines date hd)]
  have h2 : linesOf (reprEntries es) = es.map entryLine := by
    rw [reprEntries, linesOf_join _ (by simpa using hes)]
    have : (es.map fun e => e.1 ++ ':' :: ' ' :: e.2) = es.map entryLine := by
      apply List.map_congr_left
      intro e _
      simp [entryLine]
    rw [this]
    refine flatMap_lines _ fun x hx => ?_
    obtain ⟨e, hm, rfl⟩ := List.mem_map.1 hx
    have := he e hm
    simp [entryLine, this.1, this.2]
  have h3 : linesOf (header "Documentation".toList) = [header "Documentation".toList] :=
    linesOf_line _ (by decide)
  have h4 : linesOf (header "Configuration".toList) = [header "Configuration".toList] :=
    linesOf_line _ (by decide)
  have h5 : linesOf [] = [[]] := rfl
  cases doc with
  | none =>
    simp only [settingsText]
    rw [linesOf_join _ (by simp)]
    simp only [List.flatMap_append, List.flatMap_cons, List.flatMap_nil, h1, h2, h4, h5]
    simp
  | some d =>
    simp only [settingsText]
    rw [linesOf_join _ (by simp)]
    simp only [List.flatMap_append, List.flatMap_cons, List.flatMap_nil, h1, h2, h3, h4, h5]
    simp

theorem header_not_entry (e : Txt × Txt) : header "Configuration".toList ≠ entryLine e := by
  intro h
  have h1 : ':' ∈ header "Configuration".toList := by rw [h]; simp [entryLine]
  exact absurd h1 (by decide)

/-- **C119** The file can be read back: from the text alone date, documentation and all options with
their printed values are known, even if the documentation itself has lines that look like headers or
options. -/
theorem C119_read (date date' : Txt) (doc doc' : DocState) (es es' : List (Txt × Txt))
    (hd : '\n' ∉ date) (hd' : '\n' ∉ date') (hes : es ≠ []) (hes' : es' ≠ [])
    (he : ∀ e ∈ es, '\n' ∉ e.1 ∧ '\n' ∉ e.2 ∧ ':' ∉ e.1)
    (he' : ∀ e ∈ es', '\n' ∉ e.1 ∧ '\n' ∉ e.2 ∧ ':' ∉ e.1)
    (h : settingsText date doc es = settingsText date' doc' es') :
    date = date' ∧ doc = doc' ∧ es = es' := by
  have hl := congrArg linesOf h
  rw [C119_text date doc es hd hes fun e m => ⟨(he e m).1, (he e m).2.1⟩,
    C119_text date' doc' es' hd' hes' fun e m => ⟨(he' e m).1, (he' e m).2.1⟩] at hl
  have hno : ∀ l : List (Txt × Txt),
      header "Configuration".toList ∉ l.map entryLine ++ [[]] := by
    intro l hm
    rcases List.mem_append.1 hm with hm | hm
    · obtain ⟨e, -, h⟩ := List.mem_map.1 hm
      exact header_not_entry e h.symm
    · have : header "Configuration".toList = [] := by simpa using hm
      simp [header, rule] at this
  obtain ⟨hA, hB⟩ := last_split hl (hno es) (hno es')
  rw [List.append_assoc, List.append_assoc] at hA
  obtain ⟨h1, h2⟩ := List.append_inj hA (by simp [ackLines])
  have hdate : date = date' := by
    simp only [ackLines, List.cons.injEq, and_true, true_and] at h1
    exact List.append_cancel_left h1
  have hdoc : doc = doc' := by
    have h3 := List.append_cancel_left h2
    cases doc with
    | none => cases doc' with
      | none => rfl
      | some d' => simp at h3
    | some d => cases doc' with
      | none => simp at h3
      | some d' =>
        simp only [List.cons_append, List.cons.injEq, true_and] at h3
        have := congrArg joinLines (List.append_cancel_right h3)
        rw [join_lines, join_lines] at this
        rw [this]
  refine ⟨hdate, hdoc, ?_⟩
  have hm := List.append_cancel_right hB
  clear hl hA hB h1 h2 h hno hes hes'
  induction es generalizing es' with
  | nil => cases es' with
    | nil => rfl
    | cons e l => simp at hm
  | cons e l ih => cases es' with
    | nil => simp at hm
    | cons e' l' =>
      simp only [List.map_cons, List.cons.injEq] at hm
      have := first_split (x := ':') (A := e.1) (A' := e'.1) (B := ' ' :: e.2) (B' := ' ' :: e'.2)
        (by simpa [entryLine] using hm.1) (he e (by simp)).2.2 (he' e' (by simp)).2.2
      rw [ih l' (fun x hx => he x (by simp [hx])) (fun x hx => he' x (by simp [hx])) hm.2]
      have h2 : e.2 = e'.2 := by simpa using this.2
      rw [Prod.ext this.1 h2]

/-- **C119** Values with line breaks are not protected: then the same file can belong to different
documentations. -/
theorem C119_breaks (date : Txt) :
    let hc := header "Configuration".toList
    settingsText date (some "x".toList)
      [("a".toList, "1\n\n".toList ++ hc ++ "\nb: 2".toList)]
    = settingsText date (some ("x\n\n".toList ++ hc ++ "\na: 1".toList))
      [("b".toList, "2".toList)] := by
  simp [settingsText, joinLines, reprEntries]

/-- Hypotheses of `C119_documentation` and `C119_read`: the documentation has a line that looks like
the header of the configuration. -/
example : documented [.str "old".toList, .seq [some "A pulse".toList, some (header "Configuration".toList)],
      .other, .seq [none]] none
      = some ("A pulse\n".toList ++ header "Configuration".toList) ∧
    ('\n' ∉ "12h:00m:00s 16/11/2026".toList) ∧
    (∀ e ∈ [("compressible.mach_number".toList, "0.3".toList)],
      '\n' ∉ e.1 ∧ '\n' ∉ e.2 ∧ ':' ∉ e.1) := by
  decide

end Dream
