import Verif.Props.Conditions
import Verif.Spec.Forms

/-!
# C65: every term is assembled exactly once
-/

namespace Dream
open Spec

/-- Labels cannot be confused: if two labels of conditions in question agree then the names
agree. -/
def LabelsApart (nameOf : Cond → Name) (P : Cond → Prop) : Prop :=
  ∀ c, P c → ∀ c', P c' → ∀ s s', nameOf c ++ '_' :: s = nameOf c' ++ '_' :: s' →
    nameOf c = nameOf c'

/-- The conditions of a grouping that have a formulation. -/
def WithForm (dispatch : Cond → Except PyErr (Option Formulation)) (d : Dict Name Cond)
    (c : Cond) : Prop :=
  (∃ r, (r, c) ∈ d) ∧ ∃ f, dispatch c = .ok (some f)

theorem set_append {κ α : Type} [DecidableEq κ] {d : Dict κ α} {k : κ} (h : k ∉ d.keys) (v : α) :
    d.set k v = d ++ [(k, v)] := by
  unfold Dict.set
  have : d.has k = false := by rw [Bool.eq_false_iff]; exact fun hh => h (Dict.has_iff.1 hh)
  simp [this]

theorem addConditions_cons {dispatch : Cond → Except PyErr (Option Formulation)}
    {kv : Name × Cond} {d : Dict Name Cond} {l : List (Formulation × Name × Cond)}
    (h : addConditions dispatch (kv :: d) = .ok l) :
    ∃ o l', dispatch kv.2 = .ok o ∧ addConditions dispatch d = .ok l' ∧
      l = (o.map fun f => (f, kv.1, kv.2)).toList ++ l' := by
  obtain ⟨os, h1, rfl⟩ := (C38_all_added _ _ _).1 h
  cases h1 with
  | @cons _ o _ os ho hos =>
    refine ⟨o, _, ho, (C38_all_added _ _ _).2 ⟨os, hos, rfl⟩, ?_⟩
    cases o <;> rfl

/-- The loop over the conditions appends one labelled term per formulation, provided no label is
there yet. -/
theorem addConditionForms_append (cfg : FormCfg)
    {dispatch : Cond → Except PyErr (Option Formulation)} (d : Dict Name Cond) (blf : FormDict)
    (hd : d.keys.Nodup)
    (hfresh : ∀ kv ∈ d, (∃ f, dispatch kv.2 = .ok (some f)) →
      formKey cfg.nameOf kv.2 kv.1 ∉ blf.keys)
    (hinj : ∀ kv ∈ d, ∀ kv' ∈ d, (∃ f, dispatch kv.2 = .ok (some f)) →
      (∃ f, dispatch kv'.2 = .ok (some f)) →
      formKey cfg.nameOf kv.2 kv.1 = formKey cfg.nameOf kv'.2 kv'.1 → kv.1 = kv'.1)
    {res : FormDict} (h : cfg.addConditionForms dispatch d blf = .ok res) :
    ∃ l, addConditions dispatch d = .ok l ∧ (∀ x ∈ l, (x.2.1, x.2.2) ∈ d ∧
        dispatch x.2.2 = .ok (some x.1)) ∧
      res = blf ++ l.map (fun x => (formKey cfg.nameOf x.2.2 x.2.1, .condition x.1 x.2.1 x.2.2)) := by
  induction d generalizing blf with
  | nil =>
    cases h
    exact ⟨[], rfl, by simp, by simp⟩
  | cons kv t ih =>
    rw [FormCfg.addConditionForms, List.foldlM_cons] at h
    have hd' : kv.1 ∉ Dict.keys t ∧ (Dict.keys t).Nodup := by
      simpa [Dict.keys, List.nodup_cons] using hd
    cases ho : dispatch kv.2 with
    | error e => simp [FormCfg.addCondition, ho, bind, Except.bind] at h
    | ok o =>
      cases o with
      | none =>
        have h' : cfg.addConditionForms dispatch t blf = .ok res := by
          simpa [FormCfg.addCondition, ho, bind, Except.bind, FormCfg.addConditionForms] using h
        obtain ⟨l, h1, h2, h3⟩ := ih blf hd'.2 (fun a ha => hfresh a (by simp [ha]))
          (fun a ha b hb => hinj a (by simp [ha]) b (by simp [hb])) h'
        refine ⟨l, ?_, fun x hx => ⟨by simp [(h2 x hx).1], (h2 x hx).2⟩, h3⟩
        obtain ⟨os, e1, e2⟩ := (C38_all_added _ _ _).1 h1
        refine (C38_all_added _ _ _).2 ⟨none :: os, .cons ho e1, ?_⟩
        rw [e2]; rfl
      | some f =>
        simp only [FormCfg.addCondition, ho, bind, Except.bind] at h
        cases hs : cfg.schemeCheck f with
        | error e => simp [hs] at h
        | ok u =>
          simp only [hs, FormCfg.store, bind, Except.bind] at h
          cases hb : cfg.build (.condition f kv.1 kv.2) with
          | error e => simp [hb] at h
          | ok u =>
            simp only [hb] at h
            rw [set_append (hfresh kv (by simp) ⟨f, ho⟩)] at h
            have h' : cfg.addConditionForms dispatch t
                (blf ++ [(formKey cfg.nameOf kv.2 kv.1, .condition f kv.1 kv.2)]) = .ok res := h
            have hfr : ∀ a ∈ t, (∃ f, dispatch a.2 = .ok (some f)) →
                formKey cfg.nameOf a.2 a.1 ∉
                  Dict.keys (blf ++ [(formKey cfg.nameOf kv.2 kv.1, .condition f kv.1 kv.2)]) := by
              intro a ha hf hmem
              simp only [Dict.keys, List.map_append, List.map_cons, List.map_nil, List.mem_append,
                List.mem_singleton] at hmem
              rcases hmem with hmem | hmem
              · exact hfresh a (by simp [ha]) hf hmem
              · have := hinj a (by simp [ha]) kv (by simp) hf ⟨f, ho⟩ hmem
                exact hd'.1 (this ▸ List.mem_map.2 ⟨a, ha, rfl⟩)
            obtain ⟨l, h1, h2, h3⟩ := ih _ hd'.2 hfr
              (fun a ha b hb => hinj a (by simp [ha]) b (by simp [hb])) h'
            · refine ⟨(f, kv.1, kv.2) :: l, ?_, ?_, ?_⟩
              · obtain ⟨os, e1, e2⟩ := (C38_all_added _ _ _).1 h1
                refine (C38_all_added _ _ _).2 ⟨some f :: os, .cons ho e1, ?_⟩
                rw [e2]; rfl
              · intro x hx
                rcases List.mem_cons.1 hx with rfl | hx
                · exact ⟨by simp, ho⟩
                · exact ⟨by simp [(h2 x hx).1], (h2 x hx).2⟩
              · rw [h3]; simp

theorem formKey_inj {nameOf : Cond → Name} {P : Cond → Prop} (h : LabelsApart nameOf P) {c c' : Cond}
    (hc : P c) (hc' : P c') {s s' : Name}
    (he : formKey nameOf c s = formKey nameOf c' s') : nameOf c = nameOf c' ∧ s = s' := by
  have h1 := h c hc c' hc' s s' he
  refine ⟨h1, ?_⟩
  unfold formKey at he
  rw [h1] at he
  simpa using List.append_cancel_left he

theorem formKey_ne {nameOf : Cond → Name} (c : Cond) (s k : Name) (hk : '_' ∉ k) :
    formKey nameOf c s ≠ k := by
  intro h
  apply hk
  rw [← h]
  simp [formKey]

theorem store_ok {cfg : FormCfg} {blf res : FormDict} {k : Name} {t : FormTerm}
    (h : cfg.store blf k t = .ok res) : res = blf.set k t := by
  unfold FormCfg.store at h
  cases hb : cfg.build t with
  | error e => simp [hb, bind, Except.bind] at h
  | ok u => simp [hb, bind, Except.bind] at h; exact h.symm

/-- The labels of the terms that belong to no condition. -/
def plainLabels : List Name :=
  ["convection".toList, "diffusion".toList, "mixed".toList, "time".toList]

theorem plain_no_underscore : ∀ k ∈ plainLabels, '_' ∉ k := by decide

/-- **C65** Every term is assembled exactly once. Whatever the groupings of the boundary and domain
conditions are: if the equations can be set up at all, then the terms added to the bilinear form
are convection, diffusion exactly for viscous fluids, the mixed equations exactly with a mixed
method, one term per condition with a formulation (on its regions), and the time derivative
exactly for unsteady problems - no term is overwritten by another one. The labels of the
conditions have to be distinguishable. -/
theorem C65_terms_partial (cfg : FormCfg) (bnds doms : Dict Name Cond) (hb : bnds.keys.Nodup)
    (hd : doms.keys.Nodup)
    (hl : LabelsApart cfg.nameOf fun c =>
      WithForm dispatchBoundary bnds c ∨ WithForm dispatchDomain doms c)
    (hne : ∀ b d, WithForm dispatchBoundary bnds b → WithForm dispatchDomain doms d →
      cfg.nameOf b ≠ cfg.nameOf d)
    {blf : FormDict} (h : cfg.initializeForms bnds doms = .ok blf) :
    ∃ bl dl, addConditions dispatchBoundary bnds = .ok bl ∧
      addConditions dispatchDomain doms = .ok dl ∧
      assembled blf = equationTerms (!cfg.inviscid) (decide (cfg.mixed ≠ .inactive))
        (!cfg.stationary) (bl ++ dl) := by
  unfold FormCfg.initializeForms FormCfg.addSpatialForms at h
  cases h1 : cfg.store [] "convection".toList .convection with
  | error e => simp only [h1, bind, Except.bind] at h; cases h
  | ok b1 =>
  cases h2 : cfg.addDiffusion b1 with
  | error e => simp only [h1, h2, bind, Except.bind] at h; cases h
  | ok b2 =>
  cases h3 : cfg.addMixedForm b2 with
  | error e => simp only [h1, h2, h3, bind, Except.bind] at h; cases h
  | ok b3 =>
  cases h4 : cfg.addConditionForms dispatchBoundary bnds b3 with
  | error e => simp only [h1, h2, h3, h4, bind, Except.bind] at h; cases h
  | ok b4 =>
  cases h5 : cfg.addConditionForms dispatchDomain doms b4 with
  | error e => simp only [h1, h2, h3, h4, h5, bind, Except.bind] at h; cases h
  | ok b5 =>
  simp only [h1, h2, h3, h4, h5, bind, Except.bind] at h
  have e1 : b1 = [("convection".toList, .convection)] := store_ok h1
  have e2 : b2 = b1 ++ (if !cfg.inviscid then [("diffusion".toList, .diffusion)] else []) := by
    unfold FormCfg.addDiffusion at h2
    cases hi : cfg.inviscid
    · rw [hi] at h2
      rw [store_ok h2, e1]; rfl
    · rw [hi] at h2
      cases h2
      simp
  have e3 : b3 = b2 ++ (if cfg.mixed ≠ .inactive then [("mixed".toList, .mixed)] else []) := by
    have hm : "mixed".toList ∉ b2.keys := by
      rw [e2, e1]; cases cfg.inviscid <;> decide
    unfold FormCfg.addMixedForm at h3
    cases hx : cfg.mixed <;> rw [hx] at h3
    · cases h3; simp
    · by_cases h3d : cfg.dim = 3
      · simp [h3d] at h3
      · simp only [h3d, if_false] at h3
        rw [store_ok h3, set_append hm]; simp
    · rw [store_ok h3, set_append hm]; simp
  have k3 : ∀ k ∈ b3.keys, k ∈ plainLabels ∧ k ≠ "time".toList := by
    rw [e3, e2, e1]
    cases cfg.inviscid <;> cases cfg.mixed <;> decide
  obtain ⟨bl, f1, f2, f3⟩ := addConditionForms_append cfg bnds b3 hb
    (fun kv _ _ hmem => formKey_ne _ _ _ (plain_no_underscore _ (k3 _ hmem).1) rfl)
    (fun kv hkv kv' hkv' e e' he => (formKey_inj hl (.inl ⟨⟨_, hkv⟩, e⟩)
      (.inl ⟨⟨_, hkv'⟩, e'⟩) he).2) h4
  obtain ⟨dl, g1, g2, g3⟩ := addConditionForms_append cfg doms b4 hd
    (by
      intro kv hkv hf hmem
      rw [f3] at hmem
      simp only [Dict.keys, List.map_append, List.mem_append, List.map_map] at hmem
      rcases hmem with hmem | hmem
      · exact formKey_ne _ _ _ (plain_no_underscore _ (k3 _ hmem).1) rfl
      · obtain ⟨x, hx, he⟩ := List.mem_map.1 hmem
        have hx' : WithForm dispatchBoundary bnds x.2.2 := ⟨⟨_, (f2 x hx).1⟩, _, (f2 x hx).2⟩
        have hy' : WithForm dispatchDomain doms kv.2 := ⟨⟨_, hkv⟩, hf⟩
        exact hne _ _ hx' hy' (formKey_inj hl (.inl hx') (.inr hy') he).1)
    (fun kv hkv kv' hkv' e e' he => (formKey_inj hl (.inr ⟨⟨_, hkv⟩, e⟩)
      (.inr ⟨⟨_, hkv'⟩, e'⟩) he).2) h5
  refine ⟨bl, dl, f1, g1, ?_⟩
  have e6 : blf = b5 ++ (if !cfg.stationary then [("time".toList, .time)] else []) := by
    unfold FormCfg.addTemporalForms at h
    cases hi : cfg.stationary
    · rw [hi] at h
      rw [store_ok h, set_append]
      · rfl
      · rw [g3, f3]
        simp only [Dict.keys, List.map_append, List.mem_append, List.map_map, not_or]
        refine ⟨⟨fun hm => (k3 _ hm).2 rfl, fun hm => ?_⟩, fun hm => ?_⟩ <;>
        · obtain ⟨x, -, he⟩ := List.mem_map.1 hm
          exact formKey_ne _ _ _ (plain_no_underscore _ (by decide)) he
    · rw [hi] at h
      cases h
      simp
  rw [e6, g3, f3, e3, e2, e1]
  unfold equationTerms assembled
  cases cfg.inviscid <;> cases cfg.mixed <;> cases cfg.stationary <;>
    simp [Function.comp_def]

theorem withForm_boundary {c : Cond} {f : Formulation} (h : dispatchBoundary c = .ok (some f)) :
    c.cls ∈ [CondClass.farfield, .outflow, .cbc, .grcbc, .nscbc, .inviscidWall, .symmetry,
      .isothermalWall, .adiabaticWall] := by
  obtain ⟨i, k⟩ := c
  cases k <;> simp [dispatchBoundary, Cond.isA, CondClass.bases] at h ⊢

theorem withForm_domain {c : Cond} {f : Formulation} (h : dispatchDomain c = .ok (some f)) :
    c.cls ∈ [CondClass.spongeLayer, .pspongeLayer] := by
  obtain ⟨i, k⟩ := c
  cases k <;> simp [dispatchDomain, Cond.isA, CondClass.bases] at h ⊢

/-- Does the word start with the other one followed by an underscore? -/
def extendsLabel (a b : Name) : Bool := (a ++ ['_']).isPrefixOf b

theorem labels_apart_of_not_extends {a b s s' : Name} (h1 : extendsLabel a b = false)
    (h2 : extendsLabel b a = false) (h : a ++ '_' :: s = b ++ '_' :: s') : a = b := by
  rcases List.append_eq_append_iff.1 h with ⟨t, ht, h'⟩ | ⟨t, ht, h'⟩
  · cases t with
    | nil => simpa using ht.symm
    | cons x t =>
      simp only [List.cons_append, List.cons.injEq] at h'
      rw [← h'.1] at ht
      rw [extendsLabel, Bool.eq_false_iff] at h1
      exact absurd (List.isPrefixOf_iff_prefix.2 ⟨t, by simp [ht]⟩) h1
  · cases t with
    | nil => simpa using ht
    | cons x t =>
      simp only [List.cons_append, List.cons.injEq] at h'
      rw [← h'.1] at ht
      rw [extendsLabel, Bool.eq_false_iff] at h2
      exact absurd (List.isPrefixOf_iff_prefix.2 ⟨t, by simp [ht]⟩) h2

/-- **C65** For the conditions that come with the package no assumption on labels is needed: their
names never lead to equal labels, whatever the regions are called. -/
theorem C65_terms (cfg : FormCfg) (hn : ∀ c, cfg.nameOf c = c.cls.label)
    (bnds doms : Dict Name Cond) (hb : bnds.keys.Nodup) (hd : doms.keys.Nodup)
    {blf : FormDict} (h : cfg.initializeForms bnds doms = .ok blf) :
    ∃ bl dl, addConditions dispatchBoundary bnds = .ok bl ∧
      addConditions dispatchDomain doms = .ok dl ∧
      assembled blf = equationTerms (!cfg.inviscid) (decide (cfg.mixed ≠ .inactive))
        (!cfg.stationary) (bl ++ dl) := by
  have hall : ∀ c, (WithForm dispatchBoundary bnds c ∨ WithForm dispatchDomain doms c) →
      c.cls ∈ [CondClass.farfield, .outflow, .cbc, .grcbc, .nscbc, .inviscidWall, .symmetry,
        .isothermalWall, .adiabaticWall, .spongeLayer, .pspongeLayer] := by
    rintro c (⟨-, f, hf⟩ | ⟨-, f, hf⟩)
    · have := withForm_boundary hf
      simp only [List.mem_cons, List.not_mem_nil, or_false] at this ⊢
      tauto
    · have := withForm_domain hf
      simp only [List.mem_cons, List.not_mem_nil, or_false] at this ⊢
      tauto
  refine C65_terms_partial cfg bnds doms hb hd ?_ ?_ h
  · intro c hc c' hc' s s' he
    rw [hn, hn] at he ⊢
    have key : ∀ k ∈ [CondClass.farfield, .outflow, .cbc, .grcbc, .nscbc, .inviscidWall, .symmetry,
        .isothermalWall, .adiabaticWall, .spongeLayer, .pspongeLayer],
        ∀ k' ∈ [CondClass.farfield, .outflow, .cbc, .grcbc, .nscbc, .inviscidWall, .symmetry,
        .isothermalWall, .adiabaticWall, .spongeLayer, .pspongeLayer],
        extendsLabel k.label k'.label = false := by decide
    exact labels_apart_of_not_extends (key _ (hall c hc) _ (hall c' hc'))
      (key _ (hall c' hc') _ (hall c hc)) he
  · intro b d hb hd
    rw [hn, hn]
    have key : ∀ k ∈ [CondClass.farfield, .outflow, .cbc, .grcbc, .nscbc, .inviscidWall, .symmetry,
        .isothermalWall, .adiabaticWall],
        ∀ k' ∈ [CondClass.spongeLayer, .pspongeLayer], k.label ≠ k'.label := by decide
    exact key _ (withForm_boundary hb.2.choose_spec) _ (withForm_domain hd.2.choose_spec)

/-- **C65** Seen from the assignments: after any assignments to boundaries (whose names contain no
`|`), if no two boundary conditions share exactly the same boundaries, then in every iteration
order of the set of conditions each assigned condition that has a formulation contributes exactly
one term, on exactly the boundaries it was assigned to. -/
theorem C65_condition_once_partial (cfg : FormCfg) (hn : ∀ c, cfg.nameOf c = c.cls.label)
    (B : Conditions) (hB : B.regions.Nodup) (hbar : ∀ r ∈ B.regions, '|' ∉ r)
    {order : List Cond} (ho : B.SetOrder .condition order)
    (hdist : ∀ c ∈ order, ∀ c' ∈ order, B.regionsOf c = B.regionsOf c' → c = c')
    (doms : Dict Name Cond) (hd : doms.keys.Nodup)
    {blf : FormDict} (h : cfg.initializeForms (B.toPattern order) doms = .ok blf)
    {c : Cond} (hc : c ∈ B.assignedOf .condition) {f : Formulation}
    (hf : dispatchBoundary c = .ok (some f)) :
    ∃ p, FormTerm.condition f p c ∈ assembled blf ∧
      (∀ r, r ∈ splitBar p ↔ ∃ l, B.data.get? r = some l ∧ c ∈ l) ∧
      ∀ f' p', FormTerm.condition f' p' c ∈ assembled blf → f' = f ∧ p' = p := by
  have hkeys : (B.toPattern order).keys.Nodup := by
    have := toPattern_keys B order [] (by simp [Dict.keys])
    exact this
  obtain ⟨bl, dl, h1, h2, h3⟩ := C65_terms cfg hn _ doms hkeys hd h
  obtain ⟨hg1, hg2⟩ := C37_grouping_partial B hB hbar ho hdist
  obtain ⟨p, hp⟩ := (hg1 c).2 hc
  have hmem : ∀ {dispatch : Cond → Except PyErr (Option Formulation)} {d : Dict Name Cond} {l},
      addConditions dispatch d = .ok l → ∀ g q e, (g, q, e) ∈ l ↔
        (q, e) ∈ d ∧ dispatch e = .ok (some g) := by
    intro dispatch d
    induction d with
    | nil => intro l hl g q e; cases hl; simp
    | cons kv t ih =>
      intro l hl g q e
      obtain ⟨o, l', a1, a2, rfl⟩ := addConditions_cons hl
      rw [List.mem_append, ih a2]
      constructor
      · rintro (hx | ⟨hx, hy⟩)
        · cases o with
          | none => simp at hx
          | some f0 =>
            simp at hx
            obtain ⟨rfl, rfl, rfl⟩ := hx
            exact ⟨by simp, a1⟩
        · exact ⟨by simp [hx], hy⟩
      · rintro ⟨hx, hy⟩
        rcases List.mem_cons.1 hx with hx | hx
        · subst hx
          left
          rw [a1] at hy
          cases hy
          simp
        · exact .inr ⟨hx, hy⟩
  have hterm : ∀ g q e, FormTerm.condition g q e ∈ assembled blf ↔ (g, q, e) ∈ bl ∨ (g, q, e) ∈ dl := by
    intro g q e
    rw [h3, equationTerms]
    cases cfg.inviscid <;> cases cfg.stationary <;> cases cfg.mixed <;> simp
  have hpd : (p, c) ∈ B.toPattern order := Dict.mem_of_get? hp
  refine ⟨p, (hterm _ _ _).2 (.inl ((hmem h1 _ _ _).2 ⟨hpd, hf⟩)), hg2 p c hp, ?_⟩
  intro f' p' h'
  have hnd : ∀ g, dispatchDomain c ≠ .ok (some g) := by
    intro g hg
    have a := withForm_boundary hf
    have b := withForm_domain hg
    simp only [List.mem_cons, List.not_mem_nil, or_false] at a b
    rcases b with b | b <;> rw [b] at a <;> simp at a
  rcases (hterm _ _ _).1 h' with h' | h'
  · obtain ⟨h4, h5⟩ := (hmem h1 _ _ _).1 h'
    rw [hf] at h5
    refine ⟨(Option.some.inj (Except.ok.inj h5)).symm, ?_⟩
    have e1 := toPattern_values B order [] (by simp [Dict.get?]) p' c (Dict.get?_of_mem hkeys h4)
    have e2 := toPattern_values B order [] (by simp [Dict.get?]) p c hp
    rw [e1, e2]
  · exact absurd ((hmem h2 _ _ _).1 h').2 (hnd _)

/-- **C65** A characteristic condition in a stationary computation is refused with
`AttributeError`, whatever else is configured. -/
theorem C65_stationary_cbc (cfg : FormCfg) (hs : cfg.stationary = true) (c : Cond)
    (hc : c.isA .cbc = true) (blf : FormDict) (r : Name) :
    cfg.addCondition dispatchBoundary blf (r, c) = .error .attributeError := by
  have : dispatchBoundary c = .ok (some .cbc) := by
    obtain ⟨i, k⟩ := c
    cases k <;> simp [dispatchBoundary, Cond.isA, CondClass.bases] at hc ⊢
  simp [FormCfg.addCondition, this, FormCfg.schemeCheck, hs, bind, Except.bind]

/-- An unsteady inviscid computation in which every expression can be written down. -/
def plainForms (nameOf : Cond → Name) : FormCfg :=
  { dim := 2, inviscid := true, mixed := .inactive, stationary := false, nameOf := nameOf,
    build := fun _ => .ok () }

/-- C65, concrete instance: a farfield, a wall, periodic boundaries and a sponge layer. -/
example : ∃ blf, (plainForms fun c => c.cls.label).initializeForms
      [("out".toList, ⟨0, .farfield⟩), ("wall".toList, ⟨1, .inviscidWall⟩),
        ("l|r".toList, ⟨2, .periodic⟩)]
      [("far".toList, ⟨3, .spongeLayer⟩), ("dom|far".toList, ⟨4, .initial⟩)] = .ok blf ∧
    assembled blf = [.convection, .condition .farfield "out".toList ⟨0, .farfield⟩,
      .condition .inviscidWall "wall".toList ⟨1, .inviscidWall⟩,
      .condition .sponge "far".toList ⟨3, .spongeLayer⟩, .time] :=
  ⟨_, rfl, by decide⟩

/-- **C65 fails for user-defined conditions**: a farfield condition on the boundary `x_y` and a
condition of a derived class with the name `farfield_x` on the boundary `y` have the same label,
so that only one of the two is part of the equations. -/
theorem C65_fails_names :
    let a : Cond := ⟨0, .farfield⟩
    let b : Cond := ⟨1, .farfield⟩
    ∃ blf, (plainForms fun c => if c = b then "farfield_x".toList else c.cls.label).initializeForms
        [("x_y".toList, a), ("y".toList, b)] [] = .ok blf ∧
      dispatchBoundary a = .ok (some .farfield) ∧
      assembled blf = [.convection, .condition .farfield "y".toList b, .time] :=
  ⟨_, rfl, by decide, by decide⟩

end Dream
