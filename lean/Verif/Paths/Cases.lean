import Verif.Paths.Props
/-! # Paths: cases, and where the code deviates (C36) -/

namespace SC.Paths

/-- Texts for the cases. -/
local macro "t!" s:str : term => `(String.toList $s)

def aName : Str := ['a']
def bName : Str := ['b']
theorem aName_ok : Name aName := by refine ⟨?_, ?_, ?_, ?_⟩ <;> decide
theorem bName_ok : Name bName := by refine ⟨?_, ?_, ?_, ?_⟩ <;> decide

def cwd0 : Str := ['/', 'a']
theorem cwd0_is : Is cwd0 1 [aName] := ⟨rfl, Or.inl rfl, by simpa using aName_ok⟩
def pab : Str := ['/', 'a', '/', 'b']
theorem pab_is : Is pab 1 [aName, bName] := ⟨rfl, Or.inl rfl, by simpa using ⟨aName_ok, bName_ok⟩⟩

example : norm cwd0 (t! "x/./y/../b//") = t! "/a/x/b" := by decide +kernel
example : norm cwd0 (t! "/..//x/../b") = t! "/b" := by decide +kernel
example := norm_spec cwd0_is (t! "../x")
example := norm_norm cwd0_is (t! "../x")
example := norm_cwd cwd0 [] (s := ['/', 'x', '/', '.']) rfl

example := getitem_spec cwd0 pab_is (v := ['.', '.', '/', 'x']) rfl
example : getitem cwd0 pab (t! "../x") = t! "/a/x" := by decide +kernel
example : getitem cwd0 pab (t! "/x") = t! "/x" := by decide +kernel
example := getitem_absolute cwd0 pab (v := ['/', 'x']) rfl
example := child_spec cwd0 pab_is bName_ok
example := child_inj cwd0 pab_is aName_ok aName_ok rfl
example := parent_child cwd0 pab_is (by simp)
example := root_spec cwd0 (p := ['/']) (k := 1) ⟨rfl, Or.inl rfl, by simp⟩
example := getitem_getitem cwd0 pab_is (a := ['x', '/']) (b := ['.', '.', '/', 'y']) rfl rfl
example : relTo cwd0 pab (t! "/a/c/d") = t! "../c/d" := by decide +kernel
example := relpath_roundtrip cwd0 pab_is cwd0_is
example := relpath_norm cwd0 pab (v := ['/', 'x', '/', '.']) rfl
example := relpath_shortest cwd0 pab_is cwd0_is (c := [aName]) ⟨[bName], rfl⟩ ⟨[], rfl⟩ (by decide +kernel)
example : iterup cwd0 pab = [t! "/a/b", t! "/a", t! "/"] := by decide +kernel
example := iterup_spec cwd0 pab_is
example : root cwd0 pab = t! "/" := by decide +kernel
example := root_is cwd0 pab_is
example : commonPath cwd0 pab (t! "/a/c/b") = some (t! "/a") := by decide +kernel
example := common_spec cwd0 pab_is cwd0_is
example : commonPath cwd0 cwd0 pab = some cwd0 := (common_above cwd0 cwd0_is pab_is).2 ⟨1, [aName], [bName], cwd0_is, pab_is⟩
example : sibling cwd0 pab (t! "c/d") = t! "/a/c/d" := by decide +kernel
example := sibling_spec cwd0 pab_is (t! "c/d")
example := link_roundtrip cwd0 pab_is ['/', 'x', '/', 'y'] (fun _ => by decide)
example : relTo cwd0 (parent cwd0 pab) (t! "/x/y") = t! "../x/y" := by decide +kernel

def h5file : Str := ['/', 't', '.', 'h', '5']
theorem h5file_is : Is h5file 1 [['t', '.', 'h', '5']] :=
  ⟨rfl, Or.inl rfl, by simp [Name, dot, dots]⟩
theorem h5file_ext : HasExt h5file := ⟨['/', 't'], ['h', '5'], rfl, by simp, by simp⟩
def node : H5 := ⟨h5file, pab⟩

theorem noDev {s : Str} (h : ':' ∉ s) : ¬ HasDev s := by
  rintro ⟨a, x, r, rfl, -⟩
  exact h (by simp [devsep])

/-- Upward links are stored as absolute paths. -/
example : h5LinkText cwd0 node (t! "/x/y") ⟨h5file, t! "/x/y"⟩ = t! "/x/y" := by decide +kernel
example : h5LinkText cwd0 node (t! "/a/x") ⟨h5file, t! "/a/x"⟩ = t! "x" := by decide +kernel
example := h5link_roundtrip cwd0 node pab_is ['/', 'x', '/', 'y'] (fun _ => by decide) ⟨h5file, sibling cwd0 pab ['/', 'x', '/', 'y']⟩ rfl
example : relink cwd0 (t! "/s") (t! "/d") ⟨h5file, t! "/d/l"⟩ (t! "/s/x") = t! "/d/x" := by decide +kernel
example : relink cwd0 (t! "/s") (t! "/d") ⟨h5file, t! "/d/l"⟩ (t! "/sx") = t! "/sx" := by decide +kernel
example := relink_absolute cwd0 (source := cwd0) (dest := pab) ⟨h5file, pab⟩ (text := cwd0) (r := []) cwd0_is pab_is pab_is cwd0_is
example := relink_relative cwd0 (source := cwd0) (dest := ['/', 'd']) ⟨h5file, ['/', 'd', '/', 'l']⟩ (text := ['x']) (k := 1)
  (s := [aName]) (d := [['d']]) (r := []) (w := [['x']]) (n := ['l']) cwd0_is ⟨rfl, Or.inl rfl, by simp [Name, dot, dots]⟩ rfl
  (fun base => by simp [split, follow, dot, dots]) (by decide) (by decide)

example : devsplit (t! "/t.h5::/a") = [t! "/t.h5", t! "/a"] := by decide +kernel
example := init_location cwd0 h5file_is pab_is h5file_ext (by decide)
example := location_roundtrip cwd0 node h5file_is pab_is h5file_ext (by decide)
example := init_local cwd0 h5file_is (q := ['x']) (noDev (by decide)) (by decide)
example := h5Getitem_spec cwd0 node h5file_is pab_is (v := ['x']) (noDev (by decide)) (by decide)
example := factory_location cwd0 node h5file_is pab_is rfl (noDev (by decide)) (by decide)
example := factory_other cwd0 ⟨['/', 'u'], pab⟩ h5file_is pab_is h5file_ext (by decide) (by decide) (noDev (by decide)) (by decide)
example := h5Sibling_spec cwd0 node h5file_is pab_is (v := ['x']) rfl (noDev (by decide)) (noDev (by decide)) (by decide)
  (noDev (by decide)) (by decide)

/-! ## Deviations -/

/-- `relpath` ignores the root: from `/a` to `//b` it leads to `/b`. -/
theorem relpath_root_counterexample : ∃ p q : Str, Is p 1 [aName] ∧ Is q 2 [bName] ∧
    getitem cwd0 p (relTo cwd0 p q) ≠ q :=
  ⟨['/', 'a'], ['/', '/', 'b'], ⟨rfl, Or.inl rfl, by simpa using aName_ok⟩, ⟨rfl, Or.inr rfl, by simpa using bName_ok⟩, by decide +kernel⟩

/-- `append` and `+=` add text to the last name instead of a name. -/
theorem iadd_counterexample : iadd cwd0 cwd0 bName = ['/', 'a', 'b'] ∧ iadd cwd0 cwd0 bName ≠ getitem cwd0 cwd0 bName := by
  decide +kernel

/-- A node whose name has a `.` followed by `::` is another file. -/
theorem getitem_name_counterexample : h5Getitem cwd0 ⟨h5file, ['/']⟩ ['x', '.', 'y', ':', ':', 'z'] =
    some ⟨['/', 'x', '.', 'y'], ['/', 'z']⟩ := by decide +kernel

/-- A location in a file whose path starts with the path of this file stays in this file. -/
theorem factory_prefix_counterexample : h5Factory cwd0 ⟨h5file, ['/']⟩ (h5file ++ ['b', '.', 'h', '5', ':', ':', '/', 'x']) ≠
    some ⟨h5file ++ ['b', '.', 'h', '5'], ['/', 'x']⟩ ∧
    (h5Factory cwd0 ⟨h5file, ['/']⟩ (h5file ++ ['b', '.', 'h', '5', ':', ':', '/', 'x'])).map H5.device ≠
      some (h5file ++ ['b', '.', 'h', '5']) := by decide +kernel

/-- A file without extension is not recognized: the location is taken for the file. -/
theorem init_noext_counterexample : h5Init cwd0 ['/', 't', ':', ':', '/', 'x'] none =
    some ⟨['/', 't', ':', ':', '/', 'x'], ['/']⟩ := by decide +kernel

/-- A node below a group with the same path as the file loses that part. -/
theorem getitem_prefix_counterexample : h5Getitem cwd0 ⟨['/', 'a'], ['/', 'a']⟩ bName = some ⟨['/', 'a'], ['/', 'b']⟩ := by
  decide +kernel

/-- Names with `::` at the top level belong to the file name. -/
theorem init_greedy_counterexample : h5Init cwd0 (h5file ++ [':', ':', 'x', ':', ':', 'y']) none = some ⟨h5file ++ [':', ':', 'x'], ['/', 'y']⟩ := by decide +kernel

/-- Third example in the documentation of `_split_path` (fs.py 194-196): the device that is given does
not win. -/
theorem splitPath_doc_counterexample : splitPath (h5file ++ [':', ':', '/', 'e', ':', ':', 'n']) (some ['/', 'o', '.', 'h', '5']) =
    (h5file, ['/', 'e', ':', ':', 'n']) := by decide +kernel

/-- A relative link in a copy of a group into itself is turned to a place that need not exist. -/
theorem relink_inside_counterexample : relink cwd0 ['/', 'a'] ['/', 'a', '/', 'b'] ⟨h5file, ['/', 'a', '/', 'b', '/', 'l']⟩ ['x'] =
    ['/', 'a', '/', 'b', '/', 'b', '/', 'x'] := by decide +kernel

end SC.Paths
