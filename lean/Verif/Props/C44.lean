import Verif.Model.Loader
import Verif.Lemmas.Split

/-!
# C44: XML projects are recognised

*A project path whose file name ends in .xml is loaded as an XML project, any other path as a JSON project.*

The second half holds.  The first half is false of the code: `Path::ends_with` compares whole components of
paths, so only files whose whole name is `.xml` are loaded as XML projects (`C44_violated`).
-/

namespace Reveaal

/-- `path` is the file called `name` in some directory: `name` is what follows the last `/`. -/
def IsFile (path name : String) : Prop :=
  '/' ∉ name.toList ∧ name ≠ "" ∧ name ≠ "." ∧ name ≠ ".." ∧
    ∃ dir : List Char, path.toList = dir ++ name.toList ∧ (dir = [] ∨ ∃ d, dir = d ++ ['/'])

/-- The name of a file ends in `.xml`. -/
def XmlName (name : String) : Prop := ∃ stem : String, name = stem ++ ".xml"

theorem pathComponents_file {path name : String} (h : IsFile path name) :
    ∃ pre, pathComponents path.toList = pre ++ [.normal name.toList] := by
  obtain ⟨h1, h2, h3, h4, dir, h5, h6⟩ := h
  have hc : PathComp.ofText name.toList = some (.normal name.toList) := by
    have e : ∀ {s : String}, name.toList = s.toList → name = s := fun h => String.toList_injective h
    unfold PathComp.ofText
    rw [if_neg, if_neg, if_neg]
    · exact fun h => h4 (e (s := "..") h)
    · exact fun h => h3 (e (s := ".") h)
    · exact fun h => h2 (e (s := "") h)
  have hs : ∃ pre, splitOnChar '/' path.toList = pre ++ [name.toList] := by
    rw [h5]
    rcases h6 with h6 | ⟨d, h6⟩
    · exact ⟨[], by rw [h6, List.nil_append, splitOnChar_single h1, List.nil_append]⟩
    · exact ⟨splitOnChar '/' d, by
        rw [h6, List.append_assoc, List.singleton_append, splitOnChar_append, splitOnChar_single h1]⟩
  obtain ⟨pre, hs⟩ := hs
  unfold pathComponents
  rw [hs, List.filterMap_append, List.filterMap_cons, hc, List.filterMap_nil, ← List.append_assoc]
  exact ⟨_, rfl⟩

/-- Exactly the files whose whole name is `.xml` are loaded as XML projects. -/
theorem C44_chosen {path name : String} (h : IsFile path name) :
    getProjectLoader path = .xml ↔ name = ".xml" := by
  obtain ⟨pre, hp⟩ := pathComponents_file h
  unfold getProjectLoader isXmlProject pathEndsWith
  rw [hp, show pathComponents ".xml".toList = [.normal ".xml".toList] by decide +kernel]
  have : ([PathComp.normal ".xml".toList].isSuffixOf (pre ++ [.normal name.toList]) = true) ↔ name = ".xml" := by
    rw [List.isSuffixOf_iff_suffix]
    constructor
    · rintro ⟨q, hq⟩
      have := (List.append_inj' hq rfl).2
      injection this with this
      injection this with this
      exact String.toList_injective this.symm
    · rintro rfl
      exact ⟨pre, rfl⟩
  rw [← this]
  split <;> simp_all

/-- A file whose name does not end in `.xml` is loaded as a JSON project.  Missing: that a file whose name ends
in `.xml` is loaded as an XML project, which is false, see `C44_violated`. -/
theorem C44_other_partial {path name : String} (h : IsFile path name) (hx : ¬ XmlName name) :
    getProjectLoader path = .json := by
  cases hl : getProjectLoader path with
  | json => rfl
  | xml => exact absurd ⟨"", by rw [(C44_chosen h).1 hl]; rfl⟩ hx

/-- A directory (a path that ends in `/`, `.` or `..`) whose last name is not `.xml` is loaded as a JSON project as
well: the loader depends on the last component only. -/
theorem C44_directory {path name : String} (h : IsFile path name) (hx : name ≠ ".xml") :
    getProjectLoader (path ++ "/") = .json := by
  obtain ⟨pre, hp⟩ := pathComponents_file h
  have e : pathComponents (path ++ "/").toList = pathComponents path.toList := by
    have h0 : path.toList ≠ [] := by
      obtain ⟨_, h2, _, _, dir, h5, _⟩ := h
      intro h0
      rw [h0] at h5
      have := (List.append_eq_nil_iff.1 h5.symm).2
      exact h2 (String.toList_injective this)
    have h1 : path.toList ≠ ['.'] := by
      intro h0
      obtain ⟨_, h2, h3, _, dir, h5, h6⟩ := h
      rw [h0] at h5
      rcases h6 with rfl | ⟨d, rfl⟩
      · exact h3 (String.toList_injective h5.symm)
      · cases d with
        | nil => cases h5
        | cons a d =>
          injection h5 with _ h5
          simp at h5
    rw [String.toList_append]
    show pathComponents (path.toList ++ ['/']) = _
    unfold pathComponents
    rw [splitOnChar_append]
    have : (splitOnChar '/' ([] : List Char)).filterMap PathComp.ofText = [] := rfl
    rw [List.filterMap_append, this, List.append_nil]
    congr 1
    cases hc : path.toList with
    | nil => exact absurd hc h0
    | cons a l =>
      cases l with
      | nil =>
        rw [hc] at h1
        by_cases ha : a = '.'
        · subst ha; exact absurd rfl h1
        · by_cases hb : a = '/'
          · subst hb; rfl
          · simp [startsWithCurDir, ha, hb]
      | cons b l =>
        by_cases ha : a = '.'
        · subst ha
          by_cases hb : b = '/'
          · subst hb; rfl
          · simp [startsWithCurDir, hb]
        · simp [startsWithCurDir, ha]
  unfold getProjectLoader isXmlProject pathEndsWith
  rw [e, hp, show pathComponents ".xml".toList = [.normal ".xml".toList] by decide +kernel, if_neg]
  rw [List.isSuffixOf_iff_suffix]
  rintro ⟨q, hq⟩
  have := (List.append_inj' hq rfl).2
  injection this with this
  injection this with this
  exact hx (String.toList_injective this.symm)

/-- **Violated**: no file with a proper name ending in `.xml` is loaded as an XML project. -/
theorem C44_violated_every {path stem : String} (hs : stem ≠ "") (h : IsFile path (stem ++ ".xml")) :
    getProjectLoader path = .json := by
  cases hl : getProjectLoader path with
  | json => rfl
  | xml =>
    have e := congrArg String.toList ((C44_chosen h).1 hl)
    rw [String.toList_append] at e
    have := congrArg List.length e
    rw [List.length_append] at this
    exact absurd (String.toList_injective (List.length_eq_zero_iff.1 (by omega))) hs

/-- **Violated**: the XML sample of the repository is not recognised. -/
theorem C44_violated :
    ¬ ∀ path name : String, IsFile path name → XmlName name → getProjectLoader path = .xml := by
  intro h
  have h1 : IsFile "samples/xml/ConsTests.xml" "ConsTests.xml" :=
    ⟨by decide +kernel, by decide +kernel, by decide +kernel, by decide +kernel, "samples/xml/".toList,
      by decide +kernel, .inr ⟨"samples/xml".toList, by decide +kernel⟩⟩
  have h2 := h _ _ h1 ⟨"ConsTests", by decide +kernel⟩
  rw [C44_violated_every (stem := "ConsTests") (by decide +kernel) h1] at h2
  cases h2

/-- The hypotheses of `C44_other_partial` are met by the JSON samples. -/
example : getProjectLoader "samples/json/University" = .json :=
  C44_other_partial (name := "University")
    ⟨by decide +kernel, by decide +kernel, by decide +kernel, by decide +kernel, "samples/json/".toList,
      by decide +kernel, .inr ⟨"samples/json".toList, by decide +kernel⟩⟩
    (by
      rintro ⟨s, hs⟩
      have := congrArg (fun t : String => t.toList.getLast?) hs
      simp only [String.toList_append, List.getLast?_append] at this
      rw [show ".xml".toList.getLast? = some 'l' by decide +kernel, Option.some_or] at this
      exact absurd this (by decide +kernel))

/-- The only XML file that is recognised. -/
example : getProjectLoader "samples/.xml" = .xml := by decide +kernel

end Reveaal
