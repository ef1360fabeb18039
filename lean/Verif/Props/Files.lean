import Verif.Spec.Files
import Verif.Lemmas.Dict
import Mathlib.Logic.Encodable.Basic
import Mathlib.Data.Rat.Encodable

/-!
# C78: what was saved is what is loaded

`Spec.kept` says what a document holds after a history of saves and reconfigurations, with
documents of different sorts being different. The theorems say that the files on the disk behave
like this, except that a mesh and settings with the same folder and the same name share one file.
-/

namespace Dream

open Spec

variable {M T V : Type}

/-! ## The file of a document -/

/-- Where a document is on the disk. -/
def docFile : Doc → File
  | .mesh p n => (p, n ++ extPickle)
  | .settings p n => (p, n ++ extPickle)
  | .text p n => (p, n ++ extTxt)
  | .yaml p n => (p, n ++ extYaml)
  | .gfu p n => (p, n ++ extNgs)

theorem append_ne_of_last {a b x y : Name} (h : x.getLast? ≠ y.getLast?) (hx : x ≠ [])
    (hy : y ≠ []) : a ++ x ≠ b ++ y := by
  intro he
  have := congrArg List.getLast? he
  rw [List.getLast?_append_of_ne_nil _ hx, List.getLast?_append_of_ne_nil _ hy] at this
  exact h this

/-- The two sorts of documents that share their files. -/
def Doc.twin : Doc → Option Doc
  | .mesh p n => some (.settings p n)
  | .settings p n => some (.mesh p n)
  | _ => none

theorem docFile_inj {a b : Doc} (h : docFile a = docFile b) : a = b ∨ Doc.twin a = some b := by
  cases a <;> cases b <;> simp only [docFile, Prod.mk.injEq] at h <;> obtain ⟨h1, h2⟩ := h <;>
    first
    | (left; subst h1; rw [List.append_cancel_right h2]; done)
    | (right; subst h1; simp only [Doc.twin]; rw [List.append_cancel_right h2]; done)
    | (exact absurd h2 (append_ne_of_last (by decide) (by decide) (by decide)))

/-- Nothing was saved as this document. -/
def Unsaved (doc : Option Doc) (c : FileCfg) (as : List (FileCmd M T V)) : Prop :=
  ∀ x, doc = some x → kept x c as none = none

theorem nameOr_called (n : Option Name) (s : Name) : nameOr s n = called n s := by
  cases n <;> rfl

/-- One save in a folder. -/
def put (c : FileCfg) (key : String) (n : Name) (x : Content M T V) (d : Disk M T V) :
    Except PyErr (Disk M T V) := do
  let (d, p) ← streamPath c key d
  .ok (d.write (p, n) x)

theorem put_ok {c : FileCfg} {key : String} {p : APath} (h : c.folders.get? key = some p)
    (n : Name) (x : Content M T V) (d : Disk M T V) :
    ∃ d', put c key n x d = .ok d' ∧
      ∀ f, d'.files.get? f = if f = (p, n) then some x else d.files.get? f := by
  refine ⟨(if p ∈ d.dirs then d else { d with dirs := p :: d.dirs }).write (p, n) x, ?_, ?_⟩
  · simp [put, streamPath, h, bind, Except.bind]
  · intro f
    simp only [Disk.write, Dict.get?_set]
    split <;> [rfl; split <;> rfl]

theorem put_err {c : FileCfg} {key : String} (h : c.folders.get? key = none)
    (n : Name) (x : Content M T V) (d : Disk M T V) :
    put c key n x d = .error .keyError := by
  simp [put, streamPath, h, bind, Except.bind]

/-- The disk after a command that may raise. -/
def after (d : Disk M T V) : Except PyErr (FileCfg × Disk M T V) → Disk M T V
  | .ok s => s.2
  | .error _ => d

open Classical in
/-- One save seen from a document that does not share its file with the saved one. -/
theorem put_doc (c : FileCfg) (key : String) (n : Name) (x : Content M T V) (d : Disk M T V)
    (mk : APath → Doc) (hmk : ∀ p, docFile (mk p) = (p, n)) (doc : Doc)
    (ht : ∀ p, c.folders.get? key = some p → Doc.twin doc ≠ some (mk p)) :
    (after d (do .ok (c, ← put c key n x d))).files.get? (docFile doc) =
      if ∃ p, c.folders.get? key = some p ∧ doc = mk p then some x
      else d.files.get? (docFile doc) := by
  rcases h : c.folders.get? key with _ | p
  · simp [put_err h, bind, Except.bind, after]
  · obtain ⟨d', hd, hf⟩ := put_ok h n x d
    simp only [hd, bind, Except.bind, after, hf]
    by_cases he : doc = mk p
    · subst he
      rw [if_pos (hmk p), if_pos ⟨p, rfl, rfl⟩]
    · rw [if_neg, if_neg]
      · rintro ⟨q, hq, hq'⟩
        cases hq
        exact he hq'
      · intro hf'
        rw [← hmk p] at hf'
        rcases docFile_inj hf' with h1 | h1
        · exact he h1
        · exact ht p h h1

theorem saveSettings_ok {c : FileCfg} {p : APath} (h : c.folders.get? "settings" = some p)
    (t : T) (s : List Char) (d : Disk M T V) :
    ∃ d', saveSettings c t s d = .ok d' ∧ ∀ f, d'.files.get? f =
      if c.yaml = true ∧ f = (p, c.settingsName ++ extYaml) then some (.yaml t)
      else if c.txt = true ∧ f = (p, c.settingsName ++ extTxt) then some (.text s)
      else if c.pickle = true ∧ f = (p, c.settingsName ++ extPickle) then some (.tree t)
      else d.files.get? f := by
  have k1 : ∀ b : Bool, ∃ d', (if b then saveToPickle c none t d else .ok d) = .ok d' ∧
      ∀ f, d'.files.get? f = if b = true ∧ f = (p, c.settingsName ++ extPickle)
        then some (.tree t) else d.files.get? f := by
    rintro (_ | _)
    · exact ⟨d, by simp, by simp⟩
    · obtain ⟨d', h1, h2⟩ := put_ok h (c.settingsName ++ extPickle) (.tree t) d
      exact ⟨d', by rw [if_pos rfl]; exact h1, by simpa using h2⟩
  have k2 : ∀ (b : Bool) (d : Disk M T V), ∃ d', (if b then saveToTxt c none s d else .ok d) = .ok d' ∧
      ∀ f, d'.files.get? f = if b = true ∧ f = (p, c.settingsName ++ extTxt)
        then some (.text s) else d.files.get? f := by
    rintro (_ | _) d
    · exact ⟨d, by simp, by simp⟩
    · obtain ⟨d', h1, h2⟩ := put_ok h (c.settingsName ++ extTxt) (.text s) d
      exact ⟨d', by rw [if_pos rfl]; exact h1, by simpa using h2⟩
  have k3 : ∀ (b : Bool) (d : Disk M T V), ∃ d', (if b then saveToYaml c none t d else .ok d) = .ok d' ∧
      ∀ f, d'.files.get? f = if b = true ∧ f = (p, c.settingsName ++ extYaml)
        then some (.yaml t) else d.files.get? f := by
    rintro (_ | _) d
    · exact ⟨d, by simp, by simp⟩
    · obtain ⟨d', h1, h2⟩ := put_ok h (c.settingsName ++ extYaml) (.yaml t) d
      exact ⟨d', by rw [if_pos rfl]; exact h1, by simpa using h2⟩
  obtain ⟨d1, h1, f1⟩ := k1 c.pickle
  obtain ⟨d2, h2, f2⟩ := k2 c.txt d1
  obtain ⟨d3, h3, f3⟩ := k3 c.yaml d2
  refine ⟨d3, ?_, fun f => by rw [f3, f2, f1]⟩
  unfold saveSettings
  calc _ = (if c.pickle then saveToPickle c none t d else .ok d) >>= fun d =>
        (if c.txt then saveToTxt c none s d else .ok d) >>= fun d =>
          if c.yaml then saveToYaml c none t d else .ok d := by
        cases c.pickle <;> cases c.txt <;> rfl
    _ = .ok d3 := by
        rw [h1]
        change (if c.txt then saveToTxt c none s d1 else .ok d1) >>= _ = _
        rw [h2]
        exact h3

theorem saveSettings_err {c : FileCfg} (h : c.folders.get? "settings" = none)
    (t : T) (s : List Char) (d : Disk M T V) :
    saveSettings c t s d = .ok d ∨ saveSettings c t s d = .error .keyError := by
  have e1 : saveToPickle c none t d = .error .keyError := put_err h _ _ d
  have e2 : saveToTxt c none s d = .error .keyError := put_err h _ _ d
  have e3 : saveToYaml c none t d = .error .keyError := put_err h _ _ d
  unfold saveSettings
  rcases c.pickle <;> rcases c.txt <;> rcases c.yaml <;>
    simp [e1, e2, e3, bind, Except.bind]

theorem docFile_pickle {doc : Doc} {p : APath} {n : Name} :
    docFile doc = (p, n ++ extPickle) ↔ doc = .settings p n ∨ doc = .mesh p n := by
  constructor
  · intro hd
    rcases docFile_inj (b := .settings p n) hd with h' | h'
    · exact .inl h'
    · right
      cases doc <;> simp only [Doc.twin, Option.some.injEq, Doc.settings.injEq, reduceCtorEq] at h'
      rw [h'.1, h'.2]
  · rintro (rfl | rfl) <;> rfl

theorem docFile_txt {doc : Doc} {p : APath} {n : Name} :
    docFile doc = (p, n ++ extTxt) ↔ doc = .text p n := by
  constructor
  · intro hd
    rcases docFile_inj (b := .text p n) hd with h' | h'
    · exact h'
    · cases doc <;> simp only [Doc.twin, Option.some.injEq, reduceCtorEq] at h'
  · rintro rfl; rfl

theorem docFile_yaml {doc : Doc} {p : APath} {n : Name} :
    docFile doc = (p, n ++ extYaml) ↔ doc = .yaml p n := by
  constructor
  · intro hd
    rcases docFile_inj (b := .yaml p n) hd with h' | h'
    · exact h'
    · cases doc <;> simp only [Doc.twin, Option.some.injEq, reduceCtorEq] at h'
  · rintro rfl; rfl

/-- One action seen from a document whose twin is not saved by it. -/
theorem run_doc (c : FileCfg) (d : Disk M T V) (a : FileCmd M T V) (doc : Doc)
    (ht : ∀ x, Doc.twin doc = some x → keep c a x none = none) :
    (after d (a.run (c, d))).files.get? (docFile doc) =
      keep c a doc (d.files.get? (docFile doc)) := by
  cases a with
  | saveMesh m =>
    refine put_doc c "root" (c.meshName ++ extPickle) (.mesh m) d
      (fun p => .mesh p c.meshName) (fun _ => rfl) doc ?_
    intro p hp he
    have := ht _ he
    simp only [keep, reduceCtorEq, ite_eq_right_iff, imp_false] at this
    exact this ⟨p, hp, rfl⟩
  | saveToPickle n t =>
    refine put_doc c "settings" (nameOr c.settingsName n ++ extPickle) (.tree t) d
      (fun p => .settings p (called n c.settingsName)) (fun _ => by rw [← nameOr_called]; rfl) doc ?_
    intro p hp he
    have := ht _ he
    simp only [keep, reduceCtorEq, ite_eq_right_iff, imp_false] at this
    exact this ⟨p, hp, rfl⟩
  | saveToTxt n s =>
    refine put_doc c "settings" (nameOr c.settingsName n ++ extTxt) (.text s) d
      (fun p => .text p (called n c.settingsName)) (fun _ => by rw [← nameOr_called]; rfl) doc ?_
    intro p hp he
    cases doc <;> simp [Doc.twin] at he
  | saveToYaml n t =>
    refine put_doc c "settings" (nameOr c.settingsName n ++ extYaml) (.yaml t) d
      (fun p => .yaml p (called n c.settingsName)) (fun _ => by rw [← nameOr_called]; rfl) doc ?_
    intro p hp he
    cases doc <;> simp [Doc.twin] at he
  | saveGridfunction n v =>
    refine put_doc c "states" (nameOr c.gfuName n ++ extNgs) (.vec v) d
      (fun p => .gfu p (called n c.gfuName)) (fun _ => by rw [← nameOr_called]; rfl) doc ?_
    intro p hp he
    cases doc <;> simp [Doc.twin] at he
  | configure c' => rfl
  | saveSettings t s =>
    rcases h : c.folders.get? "settings" with _ | p
    · have hk : keep c (.saveSettings t s) doc (d.files.get? (docFile doc)) =
          d.files.get? (docFile doc) := by
        simp [keep, h]
      rw [hk]
      simp only [FileCmd.run]
      rcases saveSettings_err h t s d with e | e <;> simp [e, bind, Except.bind, after]
    · obtain ⟨d3, h3, f3⟩ := saveSettings_ok h t s d
      have hm : c.pickle = true → doc ≠ .mesh p c.settingsName := by
        rintro hp rfl
        have := ht _ rfl
        simp [keep, h, hp] at this
      clear ht
      simp only [FileCmd.run, h3, bind, Except.bind, after, f3]
      have e1 := docFile_pickle (doc := doc) (p := p) (n := c.settingsName)
      have e2 := docFile_txt (doc := doc) (p := p) (n := c.settingsName)
      have e3 := docFile_yaml (doc := doc) (p := p) (n := c.settingsName)
      have k : ∀ mk : APath → Doc, (∃ q, c.folders.get? "settings" = some q ∧ doc = mk q) ↔
          doc = mk p := by
        intro mk
        rw [h]
        exact ⟨fun ⟨q, hq, hd⟩ => by cases hq; exact hd, fun hd => ⟨p, rfl, hd⟩⟩
      have k1 := k fun q => .settings q c.settingsName
      have k2 := k fun q => .text q c.settingsName
      have k3 := k fun q => .yaml q c.settingsName
      simp only [keep]
      by_cases a1 : doc = .settings p c.settingsName
      · have b2 : ¬ doc = .text p c.settingsName := by rw [a1]; simp
        have b3 : ¬ doc = .yaml p c.settingsName := by rw [a1]; simp
        rw [if_neg (fun x => b3 (e3.1 x.2)), if_neg (fun x => b2 (e2.1 x.2))]
        by_cases hp : c.pickle = true
        · rw [if_pos ⟨hp, e1.2 (.inl a1)⟩, if_pos ⟨hp, k1.2 a1⟩]
        · have m1 : ¬ (c.pickle = true ∧ ∃ q, c.folders.get? "settings" = some q ∧
              doc = .settings q c.settingsName) := fun x => hp x.1
          rw [if_neg m1, if_neg (fun x => hp x.1), if_neg (fun x => b2 (k2.1 x.2)),
            if_neg (fun x => b3 (k3.1 x.2))]
      have hq : ¬ (c.pickle = true ∧ docFile doc = (p, c.settingsName ++ extPickle)) :=
        fun x => (e1.1 x.2).elim a1 (hm x.1)
      have hq' : ¬ (c.pickle = true ∧ ∃ q, c.folders.get? "settings" = some q ∧
          doc = .settings q c.settingsName) := fun x => a1 (k1.1 x.2)
      rw [if_neg hq, if_neg hq']
      have g2 : (c.txt = true ∧ docFile doc = (p, c.settingsName ++ extTxt)) ↔
          (c.txt = true ∧ ∃ q, c.folders.get? "settings" = some q ∧
            doc = .text q c.settingsName) := by rw [e2, k2]
      have g3 : (c.yaml = true ∧ docFile doc = (p, c.settingsName ++ extYaml)) ↔
          (c.yaml = true ∧ ∃ q, c.folders.get? "settings" = some q ∧
            doc = .yaml q c.settingsName) := by rw [e3, k3]
      by_cases b3 : c.yaml = true ∧ docFile doc = (p, c.settingsName ++ extYaml)
      · have b2 : ¬ (c.txt = true ∧ docFile doc = (p, c.settingsName ++ extTxt)) := by
          intro x
          have := (e3.1 b3.2).symm.trans (e2.1 x.2)
          simp at this
        rw [if_pos b3, if_neg (fun x => b2 (g2.2 x)), if_pos (g3.1 b3)]
      · rw [if_neg b3]
        by_cases b2 : c.txt = true ∧ docFile doc = (p, c.settingsName ++ extTxt)
        · rw [if_pos b2, if_pos (g2.1 b2)]
        · rw [if_neg b2, if_neg (fun x => b2 (g2.2 x)), if_neg (fun x => b3 (g3.2 x))]

theorem run_cfg (c : FileCfg) (d : Disk M T V) (a : FileCmd M T V) :
    (∃ d', a.run (c, d) = .ok (configured c a, d')) ∨
      ((∃ e, a.run (c, d) = .error e) ∧ configured c a = c) := by
  cases a <;> simp only [FileCmd.run, configured]
  case configure c' => exact .inl ⟨d, rfl⟩
  case saveMesh m => rcases saveMesh c m d with _ | _ <;> simp [bind, Except.bind]
  case saveSettings t s => rcases saveSettings c t s d with _ | _ <;> simp [bind, Except.bind]
  case saveToPickle n t => rcases saveToPickle c n t d with _ | _ <;> simp [bind, Except.bind]
  case saveToTxt n t => rcases saveToTxt c n t d with _ | _ <;> simp [bind, Except.bind]
  case saveToYaml n t => rcases saveToYaml c n t d with _ | _ <;> simp [bind, Except.bind]
  case saveGridfunction n t =>
    rcases saveGridfunction c n t d with _ | _ <;> simp [bind, Except.bind]

theorem keep_isSome (c : FileCfg) (a : FileCmd M T V) (doc : Doc) {x : Option (Content M T V)}
    (hx : x ≠ none) : keep c a doc x ≠ none := by
  cases a <;> simp only [keep] <;> (try split_ifs) <;> simp [hx]

theorem kept_isSome (doc : Doc) (as : List (FileCmd M T V)) : ∀ (c : FileCfg)
    {x : Option (Content M T V)}, x ≠ none → kept doc c as x ≠ none := by
  induction as with
  | nil => intro c x hx; exact hx
  | cons a as ih => intro c x hx; exact ih _ (keep_isSome c a doc hx)

/-- **C78.** After every history of saves and reconfigurations the file of a document holds what
was saved last as this document, provided nothing was saved as a document sharing its file. -/
theorem history_doc (doc : Doc) (as : List (FileCmd M T V)) : ∀ (c : FileCfg) (d : Disk M T V),
    Unsaved (Doc.twin doc) c as →
    (runFiles (c, d) as).1 = configAfter c as ∧
    (runFiles (c, d) as).2.files.get? (docFile doc) =
      kept doc c as (d.files.get? (docFile doc)) := by
  induction as with
  | nil => intro c d _; exact ⟨rfl, rfl⟩
  | cons a as ih =>
    intro c d hu
    have h1 : ∀ x, Doc.twin doc = some x → keep c a x none = none := by
      intro x hx
      by_contra hn
      exact kept_isSome x as (configured c a) hn (hu x hx)
    have h2 : Unsaved (Doc.twin doc) (configured c a) as := by
      intro x hx
      have := hu x hx
      simp only [kept, h1 x hx] at this
      exact this
    have hs := run_doc c d a doc h1
    rcases run_cfg c d a with ⟨d', hr⟩ | ⟨⟨e, hr⟩, hc⟩
    · simp only [runFiles, hr]
      rw [hr] at hs
      simp only [after] at hs
      obtain ⟨i1, i2⟩ := ih (configured c a) d' h2
      exact ⟨i1, by rw [i2, hs]; rfl⟩
    · simp only [runFiles, hr]
      rw [hr] at hs
      simp only [after] at hs
      rw [hc] at h2
      obtain ⟨i1, i2⟩ := ih c d h2
      refine ⟨by rw [i1]; simp only [configAfter, hc], ?_⟩
      rw [i2]
      simp only [kept, hc]
      rw [← hs]

/-! ## Loading -/

/-- An empty disk. -/
def emptyDisk : Disk M T V := ⟨[], []⟩

/-- Loading a document that may not exist. -/
def fetched {α : Type} : Option α → Except PyErr α
  | none => .error .fileNotFound
  | some x => .ok x

theorem kept_mesh (p : APath) (n : Name) (as : List (FileCmd M T V)) : ∀ (c : FileCfg)
    (x : Option (Content M T V)), (∀ y, x = some y → ∃ m, y = .mesh m) →
    ∀ y, kept (.mesh p n) c as x = some y → ∃ m, y = .mesh m := by
  induction as with
  | nil => intro c x hx; exact hx
  | cons a as ih =>
    intro c x hx
    refine ih _ _ ?_
    cases a <;> simp only [keep, reduceCtorEq, and_false, exists_false, if_false] <;>
      (try exact hx)
    intro y hy
    split at hy
    · cases hy; exact ⟨_, rfl⟩
    · exact hx y hy

theorem kept_settings (p : APath) (n : Name) (as : List (FileCmd M T V)) : ∀ (c : FileCfg)
    (x : Option (Content M T V)), (∀ y, x = some y → ∃ t, y = .tree t) →
    ∀ y, kept (.settings p n) c as x = some y → ∃ t, y = .tree t := by
  induction as with
  | nil => intro c x hx; exact hx
  | cons a as ih =>
    intro c x hx
    refine ih _ _ ?_
    cases a <;> simp only [keep, reduceCtorEq, and_false, exists_false, if_false] <;>
      (try exact hx) <;>
    · intro y hy
      split at hy
      · cases hy; exact ⟨_, rfl⟩
      · exact hx y hy

theorem kept_gfu (p : APath) (n : Name) (as : List (FileCmd M T V)) : ∀ (c : FileCfg)
    (x : Option (Content M T V)), (∀ y, x = some y → ∃ v, y = .vec v) →
    ∀ y, kept (.gfu p n) c as x = some y → ∃ v, y = .vec v := by
  induction as with
  | nil => intro c x hx; exact hx
  | cons a as ih =>
    intro c x hx
    refine ih _ _ ?_
    cases a <;> simp only [keep, reduceCtorEq, and_false, exists_false, if_false] <;>
      (try exact hx) <;>
    · intro y hy
      split at hy
      · cases hy; exact ⟨_, rfl⟩
      · exact hx y hy

theorem streamPath_ok {c : FileCfg} {key : String} {p : APath} (h : c.folders.get? key = some p)
    (d : Disk M T V) : ∃ d', streamPath c key d = .ok (d', p) ∧ d'.files = d.files := by
  refine ⟨if p ∈ d.dirs then d else { d with dirs := p :: d.dirs }, by simp [streamPath, h], ?_⟩
  split <;> rfl

/-- **C78.** Whatever was saved, under whatever folders and names: loading the mesh gives the mesh
that was saved last in the root folder under the name of the stream, and raises if none was,
provided no settings were saved there under the same name. -/
theorem C78_mesh_partial (c c' : FileCfg) (as : List (FileCmd M T V)) {p : APath}
    (hp : c'.folders.get? "root" = some p)
    (hu : kept (M := M) (T := T) (V := V) (.settings p c'.meshName) c as none = none) :
    loadMesh c' (runFiles (c, emptyDisk) as).2 = fetched (kept (.mesh p c'.meshName) c as none) := by
  obtain ⟨d', h1, h2⟩ := streamPath_ok hp (runFiles (c, emptyDisk) as).2
  have h := (history_doc (.mesh p c'.meshName) as c emptyDisk
    (by rintro x hx; cases hx; exact hu)).2
  have hk := kept_mesh (M := M) (T := T) (V := V) p c'.meshName as c none (by simp)
  have e : (emptyDisk : Disk M T V).files.get? (docFile (.mesh p c'.meshName)) = none := rfl
  rw [e] at h
  simp only [loadMesh, h1, bind, Except.bind, Disk.read, h2]
  change (runFiles (c, emptyDisk) as).2.files.get? (p, c'.meshName ++ extPickle) = _ at h
  rw [h]
  rcases hx : kept (.mesh p c'.meshName) c as none with _ | y
  · rfl
  · obtain ⟨m, rfl⟩ := hk y hx
    rfl

/-- **C78.** Likewise for the settings, under the name given or the name of the stream. -/
theorem C78_settings_partial (c c' : FileCfg) (n : Option Name) (as : List (FileCmd M T V)) {p : APath}
    (hp : c'.folders.get? "settings" = some p)
    (hu : kept (M := M) (T := T) (V := V) (.mesh p (called n c'.settingsName)) c as none = none) :
    loadFromPickle c' n (runFiles (c, emptyDisk) as).2 =
      fetched (kept (.settings p (called n c'.settingsName)) c as none) := by
  obtain ⟨d', h1, h2⟩ := streamPath_ok hp (runFiles (c, emptyDisk) as).2
  have h := (history_doc (.settings p (called n c'.settingsName)) as c emptyDisk
    (by rintro x hx; cases hx; exact hu)).2
  have hk := kept_settings (M := M) (T := T) (V := V) p (called n c'.settingsName) as c none
    (by simp)
  have e : (emptyDisk : Disk M T V).files.get? (docFile (.settings p (called n c'.settingsName))) =
    none := rfl
  rw [e] at h
  simp only [loadFromPickle, h1, bind, Except.bind, Disk.read, h2, nameOr_called]
  change (runFiles (c, emptyDisk) as).2.files.get? (p, called n c'.settingsName ++ extPickle) = _ at h
  rw [h]
  rcases hx : kept (.settings p (called n c'.settingsName)) c as none with _ | y
  · rfl
  · obtain ⟨m, rfl⟩ := hk y hx
    rfl

/-- **C78.** Likewise for gridfunctions, without any proviso: no other stream writes such files. -/
theorem C78_gridfunction (c c' : FileCfg) (n : Option Name) (as : List (FileCmd M T V)) {p : APath}
    (hp : c'.folders.get? "states" = some p) :
    (∀ v, kept (.gfu p (called n c'.gfuName)) c as none = some (.vec v) →
      loadGridfunction c' n (runFiles (c, emptyDisk) as).2 = .ok v) ∧
    (kept (M := M) (T := T) (V := V) (.gfu p (called n c'.gfuName)) c as none = none →
      loadGridfunction c' n (runFiles (c, emptyDisk) as).2 = .error .fileNotFound) ∧
    (∀ x, kept (M := M) (T := T) (V := V) (.gfu p (called n c'.gfuName)) c as none = some x →
      ∃ v, x = .vec v) := by
  obtain ⟨d', h1, h2⟩ := streamPath_ok hp (runFiles (c, emptyDisk) as).2
  have h := (history_doc (.gfu p (called n c'.gfuName)) as c emptyDisk
    (by rintro x hx; cases hx)).2
  have hk := kept_gfu (M := M) (T := T) (V := V) p (called n c'.gfuName) as c none (by simp)
  have e : (emptyDisk : Disk M T V).files.get? (docFile (.gfu p (called n c'.gfuName))) =
    none := rfl
  rw [e] at h
  change (runFiles (c, emptyDisk) as).2.files.get? (p, called n c'.gfuName ++ extNgs) = _ at h
  refine ⟨fun v hv => ?_, fun hn => ?_, hk⟩ <;>
    simp only [loadGridfunction, h1, bind, Except.bind, Disk.read, h2, nameOr_called, h]
  · rw [hv]
  · rw [hn]

/-- **C78.** The texts and YAML documents of the settings are kept in the same way. -/
theorem C78_documents (c : FileCfg) (p : APath) (n : Name) (as : List (FileCmd M T V)) :
    (runFiles (c, emptyDisk) as).2.read (p, n ++ ".txt".toList) =
      fetched (kept (.text p n) c as none) ∧
    (runFiles (c, emptyDisk) as).2.read (p, n ++ ".yaml".toList) =
      fetched (kept (.yaml p n) c as none) := by
  have h1 := (history_doc (.text p n) as c emptyDisk (by rintro x hx; cases hx)).2
  have h2 := (history_doc (.yaml p n) as c emptyDisk (by rintro x hx; cases hx)).2
  have e1 : (emptyDisk : Disk M T V).files.get? (docFile (.text p n)) = none := rfl
  have e2 : (emptyDisk : Disk M T V).files.get? (docFile (.yaml p n)) = none := rfl
  rw [e1] at h1
  rw [e2] at h2
  change (runFiles (c, emptyDisk) as).2.files.get? (p, n ++ ".txt".toList) = _ at h1
  change (runFiles (c, emptyDisk) as).2.files.get? (p, n ++ ".yaml".toList) = _ at h2
  constructor
  · simp only [Disk.read, h1]
    cases kept (.text p n) c as none <;> rfl
  · simp only [Disk.read, h2]
    cases kept (.yaml p n) c as none <;> rfl

theorem unsaved_settings {p : APath} (n : Name) (as : List (FileCmd M T V)) : ∀ (c : FileCfg),
    c.folders.get? "settings" ≠ some p →
    (∀ c', FileCmd.configure c' ∈ as → c'.folders = c.folders) →
    kept (M := M) (T := T) (V := V) (.settings p n) c as none = none := by
  induction as with
  | nil => intros; rfl
  | cons a as ih =>
    intro c hp hc
    have hf : (configured c a).folders = c.folders := by
      cases a <;> try rfl
      exact hc _ List.mem_cons_self
    have hk : keep c a (.settings p n) (none : Option (Content M T V)) = none := by
      have hn : ∀ k, ¬ ∃ q, c.folders.get? "settings" = some q ∧
          Doc.settings p n = .settings q k := by
        rintro k ⟨q, hq, hd⟩
        simp only [Doc.settings.injEq] at hd
        exact hp (hd.1 ▸ hq)
      cases a <;> simp only [keep, reduceCtorEq, and_false, exists_false, if_false, hn]
    simp only [kept, hk]
    refine ih _ (by rw [hf]; exact hp) ?_
    intro c' hc'
    rw [hf]
    exact hc c' (List.mem_cons_of_mem _ hc')

theorem unsaved_mesh {p : APath} (n : Name) (as : List (FileCmd M T V)) : ∀ (c : FileCfg),
    c.folders.get? "root" ≠ some p →
    (∀ c', FileCmd.configure c' ∈ as → c'.folders = c.folders) →
    kept (M := M) (T := T) (V := V) (.mesh p n) c as none = none := by
  induction as with
  | nil => intros; rfl
  | cons a as ih =>
    intro c hp hc
    have hf : (configured c a).folders = c.folders := by
      cases a <;> try rfl
      exact hc _ List.mem_cons_self
    have hk : keep c a (.mesh p n) (none : Option (Content M T V)) = none := by
      cases a <;> simp only [keep, reduceCtorEq, and_false, exists_false, if_false]
      rw [if_neg]
      rintro ⟨q, hq, hd⟩
      simp only [Doc.mesh.injEq] at hd
      exact hp (hd.1 ▸ hq)
    simp only [kept, hk]
    refine ih _ (by rw [hf]; exact hp) ?_
    intro c' hc'
    rw [hf]
    exact hc c' (List.mem_cons_of_mem _ hc')

/-- **C78.** With a settings folder that is not the root folder – as by default – mesh and settings
are loaded as they were saved last, whatever the names. -/
theorem C78_separate_folders (c c' : FileCfg) (n : Option Name) (as : List (FileCmd M T V))
    {p q : APath} (hp : c.folders.get? "root" = some p) (hq : c.folders.get? "settings" = some q)
    (hpq : p ≠ q) (hc : ∀ c'', FileCmd.configure c'' ∈ as → c''.folders = c.folders)
    (hc' : c'.folders = c.folders) :
    loadMesh c' (runFiles (c, emptyDisk) as).2 =
      fetched (kept (.mesh p c'.meshName) c as none) ∧
    loadFromPickle c' n (runFiles (c, emptyDisk) as).2 =
      fetched (kept (.settings q (called n c'.settingsName)) c as none) := by
  constructor
  · refine C78_mesh_partial c c' as (by rw [hc', hp]) (unsaved_settings _ as c ?_ hc)
    rw [hq]
    intro h
    exact hpq (Option.some.inj h).symm
  · refine C78_settings_partial c c' n as (by rw [hc', hq]) (unsaved_mesh _ as c ?_ hc)
    rw [hp]
    intro h
    exact hpq (Option.some.inj h)

/-- The default folders are separate. -/
theorem C78_defaults (cwd : APath) :
    (FileCfg.init cwd).folders.get? "root" = some cwd ∧
    (FileCfg.init cwd).folders.get? "settings" = some (cwd ++ ["cfg"]) ∧ cwd ≠ cwd ++ ["cfg"] := by
  refine ⟨rfl, rfl, ?_⟩
  intro h
  have := congrArg List.length h
  simp at this

/-- **C78.** Full statement, for mesh and settings: false. -/
def LoadsWhatWasSaved (M T V : Type) : Prop :=
  ∀ (c c' : FileCfg) (as : List (FileCmd M T V)) (p : APath), c'.folders.get? "root" = some p →
    loadMesh c' (runFiles (c, emptyDisk) as).2 = fetched (kept (.mesh p c'.meshName) c as none)

/-- A configuration that keeps all files in one folder and under one name. -/
def oneFolder : FileCfg :=
  { FileCfg.init ["home"] with
    folders := (Folders.init ["home"]).set "settings" ["home"]
    meshName := "case".toList
    settingsName := "case".toList }

/-- **C78 fails** if settings folder and root folder agree and mesh and settings have the same
name: the settings replace the mesh, and loading the mesh gives the settings. -/
theorem C78_fails_same_name (m : M) (t : T) (s : List Char) :
    loadMesh oneFolder (runFiles (oneFolder, (emptyDisk : Disk M T V))
      [.saveMesh m, .saveSettings t s]).2 = .ok (.tree t) ∧
    fetched (kept (V := V) (.mesh ["home"] oneFolder.meshName) oneFolder
      [.saveMesh m, .saveSettings t s] none) = .ok (.mesh m) := by
  refine ⟨?_, ?_⟩
  · have h1 : FileCmd.run (oneFolder, (emptyDisk : Disk M T V)) (.saveMesh m) =
        .ok (oneFolder, ⟨[["home"]], [((["home"], "case.pickle".toList), .mesh m)]⟩) := rfl
    have h2 : FileCmd.run (oneFolder,
        (⟨[["home"]], [((["home"], "case.pickle".toList), .mesh m)]⟩ : Disk M T V))
        (.saveSettings t s) = .ok (oneFolder, ⟨[["home"]],
          [((["home"], "case.pickle".toList), .tree t), ((["home"], "case.txt".toList), .text s)]⟩) :=
      rfl
    simp only [runFiles, h1, h2]
    rfl
  · have e : oneFolder.folders.get? "root" = some ["home"] := rfl
    simp [kept, keep, configured, e, fetched]

theorem C78_fails : ¬ LoadsWhatWasSaved Unit Unit Unit := by
  intro h
  obtain ⟨h1, h2⟩ := C78_fails_same_name (M := Unit) (T := Unit) (V := Unit) () () []
  have := h oneFolder oneFolder [.saveMesh (), .saveSettings () []] ["home"] rfl
  rw [h1, h2] at this
  cases this

/-- A non-trivial history: the default configuration, a mesh saved twice, settings saved under two
names, and a change of the file names in between. -/
example (m m' : M) (t t' : T) (s : List Char) :
    let c := FileCfg.init ["home"]
    let as : List (FileCmd M T V) := [.saveMesh m, .saveSettings t s,
      .configure { c with settingsName := "mesh".toList }, .saveSettings t' s, .saveMesh m']
    kept (.mesh ["home"] "mesh".toList) c as none = some (.mesh m') ∧
    kept (.settings ["home", "cfg"] "settings".toList) c as none = some (.tree t) ∧
    kept (.settings ["home", "cfg"] "mesh".toList) c as none = some (.tree t') ∧
    (∀ c'', FileCmd.configure c'' ∈ as → c''.folders = c.folders) := by
  have e1 : (Folders.init ["home"]).get? "root" = some ["home"] := rfl
  have e2 : (Folders.init ["home"]).get? "settings" = some ["home", "cfg"] := rfl
  refine ⟨?_, ?_, ?_, ?_⟩
  · simp [kept, keep, configured, FileCfg.init, e1, e2]
  · simp [kept, keep, configured, FileCfg.init, e1, e2]
  · simp [kept, keep, configured, FileCfg.init, e1, e2]
  · intro c'' h
    simp only [List.mem_cons, reduceCtorEq, FileCmd.configure.injEq, List.not_mem_nil, or_false,
      false_or] at h
    subst h
    rfl

/-! ## The names of the gridfunction files -/

/-- `str` renders the times in the set `S` differently, and without underscores. -/
structure Renders (str : ℚ → Name) (S : Set ℚ) : Prop where
  inj : ∀ s ∈ S, ∀ t ∈ S, str s = str t → s = t
  plain : ∀ t ∈ S, '_' ∉ str t

/-- A file of the stream at one of these times, of a space without underscore in its name. -/
def Plain (S : Set ℚ) : GFile → Prop
  | .state none => True
  | .state (some t) => t ∈ S
  | .level t fes _ => t ∈ S ∧ '_' ∉ fes.toList

theorem split_at {a b x y : Name} (ha : '_' ∉ a) (hb : '_' ∉ b)
    (h : a ++ '_' :: x = b ++ '_' :: y) : a = b ∧ x = y := by
  induction a generalizing b with
  | nil =>
    cases b with
    | nil => simpa using h
    | cons c b =>
      simp only [List.nil_append, List.cons_append, List.cons.injEq] at h
      exact absurd (h.1 ▸ List.mem_cons_self) hb
  | cons c a ih =>
    cases b with
    | nil =>
      simp only [List.nil_append, List.cons_append, List.cons.injEq] at h
      exact absurd (h.1 ▸ List.mem_cons_self) ha
    | cons c' b =>
      simp only [List.cons_append, List.cons.injEq] at h
      obtain ⟨h1, h2⟩ := ih (fun x => ha (List.mem_cons_of_mem _ x))
        (fun x => hb (List.mem_cons_of_mem _ x)) h.2
      exact ⟨by rw [h.1, h1], h2⟩

/-- **C78.** Different states and time levels are kept in different files: the names written by the
gridfunction stream do not collide. -/
theorem C78_names (filename : Name) {str : ℚ → Name} {S : Set ℚ} (hs : Renders str S)
    {f g : GFile} (hf : Plain S f) (hg : Plain S g)
    (h : gfuFileName filename str f = gfuFileName filename str g) : f = g := by
  have key : ∀ t ∈ S, ∀ s ∈ S, ∀ x, str t ≠ str s ++ '_' :: x := by
    intro t ht s _ x he
    exact hs.plain t ht (he ▸ by simp)
  rcases f with (_ | t) | ⟨t, fes, lev⟩ <;> rcases g with (_ | s) | ⟨s, fes', lev'⟩ <;>
    simp only [gfuFileName] at h
  · rfl
  · have := congrArg List.length h
    simp at this
  · have := congrArg List.length h
    simp at this
  · have := congrArg List.length h
    simp at this
  · have := List.append_cancel_left h
    simp only [List.cons.injEq, true_and] at this
    rw [hs.inj t hf s hg this]
  · have := List.append_cancel_left h
    simp only [List.cons.injEq, true_and] at this
    exact absurd this (key t hf s hg.1 _)
  · have := congrArg List.length h
    simp at this
  · have := List.append_cancel_left h
    simp only [List.cons.injEq, true_and] at this
    exact absurd this.symm (key s hg t hf.1 _)
  · have := List.append_cancel_left h
    simp only [List.cons.injEq, true_and] at this
    obtain ⟨h1, h2⟩ := split_at (hs.plain t hf.1) (hs.plain s hg.1) this
    obtain ⟨h3, h4⟩ := split_at hf.2 hg.2 h2
    rw [hs.inj t hf.1 s hg.1 h1, String.toList_inj.1 h3, String.toList_inj.1 h4]

theorem foldl_names {filename : Name} {str : ℚ → Name} {S : Set ℚ} (hs : Renders str S)
    {f : GFile} (hf : Plain S f) (ws : List (GFile × V)) (hw : ∀ w ∈ ws, Plain S w.1) :
    ∀ (a : Dict Name V) (b : Dict GFile V),
      a.get? (gfuFileName filename str f ++ ".ngs".toList) = b.get? f →
      (ws.foldl (fun d w => d.set (gfuFileName filename str w.1 ++ extNgs) w.2) a).get?
        (gfuFileName filename str f ++ ".ngs".toList) =
      (ws.foldl (fun d w => d.set w.1 w.2) b).get? f := by
  induction ws with
  | nil => intro a b h; exact h
  | cons w ws ih =>
    intro a b h
    refine ih (fun x hx => hw x (List.mem_cons_of_mem _ hx)) _ _ ?_
    rw [Dict.get?_set, Dict.get?_set]
    by_cases he : f = w.1
    · rw [if_pos he, if_pos (by rw [he]; rfl)]
    · rw [if_neg he, if_neg, h]
      intro hn
      exact he (C78_names filename hs hf (hw w List.mem_cons_self) (List.append_cancel_right hn))

/-- **C78.** So the folder behaves as if every state and every time level had a place of its own:
reading a file by its name gives what was written last to this state or level. -/
theorem C78_states (filename : Name) {str : ℚ → Name} {S : Set ℚ} (hs : Renders str S)
    (ws : List (GFile × V)) (hw : ∀ w ∈ ws, Plain S w.1) {f : GFile} (hf : Plain S f) :
    (stateFolder filename str ws).get? (gfuFileName filename str f ++ ".ngs".toList) =
      (fileSystem ws).get? f :=
  foldl_names hs hf ws hw [] [] rfl

theorem mapM_congr {α β : Type} {f g : α → Except PyErr β} : ∀ {l : List α},
    (∀ x ∈ l, f x = g x) → l.mapM f = l.mapM g
  | [], _ => rfl
  | a :: l, h => by
    rw [List.mapM_cons, List.mapM_cons, h a List.mem_cons_self,
      mapM_congr fun x hx => h x (List.mem_cons_of_mem _ hx)]

/-- **C78.** Replaying a run from the files on the disk is replaying it from the states and levels
that were saved (`loadTransient` and `loadTimeLevels` are what C10 and C59 are about). -/
theorem C78_replay (filename : Name) {str : ℚ → Name} {S : Set ℚ} (hs : Renders str S)
    (ws : List (GFile × V)) (hw : ∀ w ∈ ws, Plain S w.1) (tm : Timer) (rate : ℕ)
    (ht : ∀ ts, tm.run false rate = .ok ts → ∀ tl ∈ ts, tl.2 ∈ S) :
    loadTransientNamed filename str (stateFolder filename str ws) tm rate =
      loadTransient (fileSystem ws) tm rate := by
  unfold loadTransientNamed loadTransient
  rcases hr : tm.run false rate with e | ts
  · rfl
  · simp only [bind, Except.bind]
    refine mapM_congr fun tl htl => ?_
    have h := C78_states filename hs ws hw (f := .state (some tl.2)) (ht ts hr tl htl)
    simp only [loadNamed]
    change (stateFolder filename str ws).get? (filename ++ '_' :: str tl.2 ++ extNgs) = _ at h
    rw [h]
    cases (fileSystem ws).get? (GFile.state (some tl.2)) <;> rfl

/-- **C78.** Likewise for the time levels. -/
theorem C78_levels (filename : Name) {str : ℚ → Name} {S : Set ℚ} (hs : Renders str S)
    (ws : List (GFile × V)) (hw : ∀ w ∈ ws, Plain S w.1) (levels : List (String × String))
    {t : ℚ} (ht : t ∈ S) (hl : ∀ fl ∈ levels, '_' ∉ fl.1.toList) :
    loadTimeLevelsNamed filename str (stateFolder filename str ws) levels t =
      loadTimeLevels (fileSystem ws) levels t := by
  unfold loadTimeLevelsNamed loadTimeLevels
  refine mapM_congr fun fl hfl => ?_
  have h := C78_states filename hs ws hw (f := .level t fl.1 fl.2) ⟨ht, hl fl hfl⟩
  simp only [loadNamed, bind, Except.bind]
  change (stateFolder filename str ws).get? (filename ++ '_' :: (str t ++ '_' ::
    (fl.1.toList ++ '_' :: fl.2.toList)) ++ extNgs) = _ at h
  rw [h]
  cases (fileSystem ws).get? (GFile.level t fl.1 fl.2) <;> rfl

/-- **C78 fails** for spaces with underscores in their names: level `b` of the space `a_x` and level
`x_b` of the space `a` share a file. -/
theorem C78_fails_underscore (filename : Name) (str : ℚ → Name) (t : ℚ) :
    gfuFileName filename str (.level t "a_x" "b") = gfuFileName filename str (.level t "a" "x_b") ∧
    GFile.level t "a_x" "b" ≠ GFile.level t "a" "x_b" := by
  refine ⟨?_, by simp⟩
  simp [gfuFileName]

/-- **C78 fails** between runs: the steady state saved as `run_1` and the state at time `1` of the
transient run saved as `run` share a file. -/
theorem C78_fails_prefix (str : ℚ → Name) (h1 : str 1 = "1".toList) :
    gfuFileName "run_1".toList str (.state none) = gfuFileName "run".toList str (.state (some 1)) := by
  simp [gfuFileName, h1]

/-- The files of a run: two states and a time level, whatever the rendering. -/
example : ∀ w ∈ ([(.state (some (1/2)), 1), (.level (1/2) "U" "n+1", 2), (.state (some 1), 3)] :
    List (GFile × ℕ)), Plain Set.univ w.1 := by
  intro w hw
  simp only [List.mem_cons, List.not_mem_nil, or_false] at hw
  rcases hw with rfl | rfl | rfl <;> simp [Plain]

/-- There are renderings of all times with these properties. -/
example : Renders (fun q => List.replicate (Encodable.encode q) 'I') Set.univ where
  inj s _ t _ h := by
    have := congrArg List.length h
    simp only [List.length_replicate] at this
    exact Encodable.encode_injective this
  plain t _ h := by
    have := List.eq_of_mem_replicate h
    revert this
    decide

end Dream
