import Verif.Factory.Props
/-! # C39: concrete cases and findings -/
namespace SC.Factory
open SC.Py

/-- ASCII lower case. -/
def low (s : Str) : Str := s.map Char.toLower

/-- The classes of utils/tests/test_classfactory.py: `root`, `class1`, `class2`, `class1a`,
`class1b`, `class12a`. -/
def testProgram : List Decl :=
  [ ⟨"root".toList, [], false, none⟩,
    ⟨"class1".toList, [0], true, none⟩,
    ⟨"class2".toList, [0], true, none⟩,
    ⟨"class1a".toList, [1], false, some ["class 1a".toList]⟩,
    ⟨"class1b".toList, [1], false, some ["class 1b".toList]⟩,
    ⟨"class12a".toList, [1, 2], false, some ["class 12a".toList]⟩ ]

example : (run low init testProgram).classes.length = 6 ∧
    clsnames (run low init testProgram) 1 =
      ["class1".toList, "class1a".toList, "class1b".toList, "class12a".toList] ∧
    clsnames (run low init testProgram) 2 = ["class2".toList, "class12a".toList] ∧
    clsfactory (run low init testProgram) 1 "class 12a".toList = .ok 5 ∧
    clsfactory (run low init testProgram) 2 "class 12a".toList = .ok 5 ∧
    clsfactory (run low init testProgram) 2 "class1a".toList = .error .unknown ∧
    clsfactory (run low init testProgram) 0 "root".toList = .error .attributeError := by
  decide +kernel

example : mroOf (run low init testProgram).classes 5 = [5, 1, 2, 0] := by decide +kernel

/-- `lookup_ok`, `found_by_name`: the hypotheses hold for `class12a` in both families. -/
example : ownerOf (run low init testProgram).classes 5 = some 1 ∧
    ownerOf (run low init testProgram).classes 3 = some 1 ∧
    ownerOf (run low init testProgram).classes 2 = some 2 ∧
    facAt (run low init testProgram).classes 5 = true := by decide +kernel

/-- `found_at_once` for a later class of the same name. -/
example : clsfactory (run low init (testProgram ++ [⟨"class1a".toList, [1], false, none⟩])) 1 "class1a".toList
    = .ok 6 := by decide +kernel

/-- optics/xray.py 7-20: single inheritance. -/
def optics : List Decl :=
  [ ⟨"Optics".toList, [], false, none⟩,
    ⟨"XrayOptics".toList, [0], true, none⟩,
    ⟨"KB".toList, [1], false, some ["kb".toList]⟩,
    ⟨"ZonePlate".toList, [1], false, some ["zp".toList]⟩,
    ⟨"Filter".toList, [1], false, some ["filter".toList]⟩ ]

example : SingleInheritance optics := by
  intro d hd
  simp only [optics, List.mem_cons, List.not_mem_nil, or_false] at hd
  rcases hd with rfl | rfl | rfl | rfl | rfl <;> simp

example : clsfactory (run low init optics) 1 "zoneplate".toList = .ok 3 ∧
    clsfactory (run low init optics) 1 "zp".toList = .ok 3 ∧
    clsfactory (run low init optics) 3 "KB".toList = .ok 2 ∧
    clsallnames (run low init optics) 1 = ["XrayOptics".toList, "KB".toList, "ZonePlate".toList, "Filter".toList,
      "xrayoptics".toList, "kb".toList, "zoneplate".toList, "zp".toList, "filter".toList] := by decide +kernel

/-- A class statement without consistent resolution order registers nothing (`define_fails`). -/
example : define low (run low init testProgram) ⟨"bad".toList, [0, 1], false, none⟩ = none := by
  have : linearize (run low init testProgram).classes [0, 1] = none := by decide +kernel
  simp [define, this]

/-- **Finding**: lookups depend on the case, apart from the all-lower-case spelling: `ZONEPLATE`
and `Zp` are unknown although `zoneplate` and `zp` are not. -/
theorem case_matters : ∃ (h : List Decl) (c k : Nat) (d : Decl) (n : Str),
    declAt (run low init h) k = some d ∧ clsfactory (run low init h) c d.name = .ok k ∧ low n = low d.name ∧
    clsfactory (run low init h) c n = .error .unknown :=
  ⟨optics, 1, 3, ⟨"ZonePlate".toList, [1], false, some ["zp".toList]⟩, "ZONEPLATE".toList, by decide +kernel⟩

/-- **Finding**: a later registration does not always win: an alias that is the name of an earlier
class is never used. -/
theorem name_beats_later_alias : ∃ (h : List Decl) (c k : Nat) (n : Str),
    n ∈ aliasesOf (run low init h).classes k ∧ ownerOf (run low init h).classes k = some c ∧
    (∀ j, k < j → declAt (run low init h) j = none) ∧ clsfactory (run low init h) c n ≠ .ok k := by
  refine ⟨[⟨"A".toList, [], true, none⟩, ⟨"B".toList, [0], false, none⟩,
    ⟨"C".toList, [0], false, some ["B".toList]⟩], 0, 2, "B".toList, by decide +kernel, by decide +kernel, ?_, by decide +kernel⟩
  intro j hj
  have : (run low init [⟨"A".toList, [], true, none⟩, ⟨"B".toList, [0], false, none⟩,
    ⟨"C".toList, [0], false, some ["B".toList]⟩]).classes.length = 3 := by decide +kernel
  simp only [declAt, Option.map_eq_none_iff, List.getElem?_eq_none_iff, this]
  omega

/-- **Finding**: a subclass that declares no aliases takes those of its base: the base is no
longer found under its own alias. -/
theorem subclass_takes_alias : ∃ (h : List Decl) (c k b : Nat) (d : Decl) (n : Str),
    declAt (run low init h) b = some d ∧ (∃ al, d.aliases = some al ∧ n ∈ al) ∧
    Base (run low init h) b k ∧ (∃ d', declAt (run low init h) k = some d' ∧ d'.aliases = none) ∧
    clsfactory (run low init h) c n = .ok k := by
  refine ⟨[⟨"A".toList, [], true, none⟩, ⟨"B".toList, [0], false, some ["b1".toList]⟩,
    ⟨"C".toList, [1], false, none⟩], 0, 2, 1, ⟨"B".toList, [0], false, some ["b1".toList]⟩, "b1".toList, by decide +kernel,
    ⟨_, rfl, by decide +kernel⟩, ⟨⟨"C".toList, [1], false, none⟩, by decide +kernel, by decide +kernel⟩,
    ⟨⟨"C".toList, [1], false, none⟩, by decide +kernel, rfl⟩, by decide +kernel⟩

/-- **Finding**: a class derived from a class of two families is missing from the second family,
although its base is in it. -/
theorem second_family_missed : ∃ (h : List Decl) (r k b : Nat) (d : Decl),
    declAt (run low init h) k = some d ∧ Base (run low init h) b k ∧ Member (run low init h) r b ∧
    IsRoot (run low init h) r ∧ Anc (run low init h) r k ∧
    clsfactory (run low init h) r d.name = .error .unknown := by
  have hd : declAt (run low init (testProgram ++ [⟨"class12b".toList, [5], false, none⟩])) 6
      = some ⟨"class12b".toList, [5], false, none⟩ := by decide +kernel
  have hd5 : declAt (run low init (testProgram ++ [⟨"class12b".toList, [5], false, none⟩])) 5
      = some ⟨"class12a".toList, [1, 2], false, some ["class 12a".toList]⟩ := by decide +kernel
  have hb : Base (run low init (testProgram ++ [⟨"class12b".toList, [5], false, none⟩])) 5 6 :=
    ⟨_, hd, by decide +kernel⟩
  have hm : Member (run low init (testProgram ++ [⟨"class12b".toList, [5], false, none⟩])) 2 5 :=
    ⟨by decide +kernel, Or.inr ⟨2, ⟨_, hd5, by decide +kernel⟩, by decide +kernel⟩⟩
  have hr := member_root low _ 2 5 hm
  exact ⟨testProgram ++ [⟨"class12b".toList, [5], false, none⟩], 2, 6, 5, _, hd, hb, hm, hr.1, .step hr.2 hb,
    by decide +kernel⟩

end SC.Factory
