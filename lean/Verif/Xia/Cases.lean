import Verif.Xia.PropsGroup2
import Verif.Xia.PropsLabel
/-! # C28: concrete cases and names or file lists for which the claims fail -/
namespace SC.Xia
open SC.Py SC.Naming SC.Common

def str (s : String) : Str := s.toList

instance : DecidableEq (Int × Dict Int (List Str)) := fun a b => instDecidableEqProd a b
instance : DecidableEq (Dict Int (Dict Int (List Str))) := fun a b => instDecidableEqList a b
instance : DecidableEq (Str × Dict Int (Dict Int (List Str))) := fun a b => instDecidableEqProd a b
instance : DecidableEq (Dict Str (Dict Int (Dict Int (List Str)))) := fun a b => instDecidableEqList a b

/-! ## cases meeting the hypotheses -/

theorem plain_of_all {s : Str} (h : s.all (fun c => c != '\n' && c != '/') = true) : Plain s := by
  intro c hc
  have := List.all_eq_true.1 h c hc
  simpa using this

example : parse [] (xiafilename (str "sample_1") 3 12 (str "xia00")) =
    some ⟨str "sample_1", 3, 12, str "xia00", str "xia", str "00"⟩ := by decide +kernel

example : RoundTrips [] (str "sample_1") 3 12 (str "xia00") :=
  (spectra_roundtrip_iff [] (by decide) (plain_of_all (by decide)) (plain_of_all (by decide)) (by decide) (by decide)).2
    (Or.inl ⟨'0', '0', rfl⟩)

/-- A usual counter name is unambiguous. -/
example : Unambiguous [] (str "sample_1") (str "xmap_x1c_00") 3 :=
  (counter_roundtrip_iff [] (by decide) (plain_of_all (by decide)) (plain_of_all (by decide)) (by decide)).1
    ⟨⟨str "sample_1", 3, -1, str "xmap_x1c_00", str "xmap_x1c", str "00"⟩, by decide +kernel, rfl, rfl, rfl, rfl⟩

example : xiaparselabel (str "xmap_x1c_00") = (str "xmap_x1c", str "00") :=
  xiaparselabel_detector (base := str "xmap_x1c") (d := str "00") (by decide) (Or.inl (by decide)) (Or.inr (by decide)) (by decide)

example : xiagroup [] [str "s_xia01_0003_0000_0001.edf", str "d/s_xia00_0003_0000_0001.edf", str "s_zap_x_0003_0000.edf",
      str "r_xia00_0001_0000_0000.edf"] =
    some [(str "r", [(1, [(0, [str "r_xia00_0001_0000_0000.edf"])])]),
      (str "s", [(3, [(-1, [str "s_zap_x_0003_0000.edf"]),
        (1, [str "d/s_xia00_0003_0000_0001.edf", str "s_xia01_0003_0000_0001.edf"])])])] := by decide +kernel

example : xiagroupmaps2 [] [str "s_xia01_0003_0000_0001.edf", str "r_xia00_0001_0000_0000.edf"] =
    some [(str "r_1", [(0, [str "r_xia00_0001_0000_0000.edf"])]), (str "s_3", [(1, [str "s_xia01_0003_0000_0001.edf"])])] := by
  decide +kernel

example : xiagroupdetectors [] [str "s_xmap_a_01_0003_0000.edf", str "s_xmap_a_00_0003_0000.edf", str "s_xmap_b_00_0003_0000.edf"] =
    some [(str "00", [(str "xmap_a", [str "s_xmap_a_00_0003_0000.edf"]), (str "xmap_b", [str "s_xmap_b_00_0003_0000.edf"])]),
      (str "01", [(str "xmap_a", [str "s_xmap_a_01_0003_0000.edf"])])] := by decide +kernel

/-! ## names that do not come back -/

theorem not_roundTrips_of {extra : List Str} {r l : Str} {m n : Int} {x : Option XiaName}
    (h : parse extra (xiafilename r m n l) = x) (h2 : ∀ y, x = some y → ¬ (y.radix = r ∧ y.mapnum = m ∧ y.linenum = n ∧ y.label = l)) :
    ¬ RoundTrips extra r m n l := by
  rintro ⟨y, h3, h4⟩
  rw [h] at h3
  exact h2 y h3 h4

/-- A radix containing a counter name that is tried earlier swallows the label. -/
theorem radix_with_counter : ¬ RoundTrips [] (str "my_arrow") 3 (-1) (str "zap_x") ∧
    parse [] (xiafilename (str "my_arrow") 3 (-1) (str "zap_x")) =
      some ⟨str "my", 3, -1, str "arrow_zap_x", str "arrow_zap_x", []⟩ := by
  have h : parse [] (xiafilename (str "my_arrow") 3 (-1) (str "zap_x")) =
      some ⟨str "my", 3, -1, str "arrow_zap_x", str "arrow_zap_x", []⟩ := by decide +kernel
  exact ⟨not_roundTrips_of h (by intro y hy; cases hy; decide), h⟩

/-- A counter name occurring twice: the radix takes the first. -/
theorem label_with_counter : ¬ RoundTrips [] (str "s") 3 (-1) (str "zap_x_zap_y") := by
  have h : parse [] (xiafilename (str "s") 3 (-1) (str "zap_x_zap_y")) =
      some ⟨str "s_zap_x", 3, -1, str "zap_y", str "zap_y", []⟩ := by decide +kernel
  exact not_roundTrips_of h (by intro y hy; cases hy; decide)

/-- A counter of map 0 taken for a file of spectra. -/
theorem counter_as_spectra : ¬ RoundTrips [] (str "s") 0 (-1) (str "zap_xia00_1234") ∧
    RoundTrips [] (str "s") 1 (-1) (str "zap_xia00_1234") := by
  have h : parse [] (xiafilename (str "s") 0 (-1) (str "zap_xia00_1234")) =
      some ⟨str "s_zap", 1234, 0, str "xia00", str "xia", str "00"⟩ := by decide +kernel
  have h' : parse [] (xiafilename (str "s") 1 (-1) (str "zap_xia00_1234")) =
      some ⟨str "s", 1, -1, str "zap_xia00_1234", str "zap_xia00_1234", []⟩ := by decide +kernel
  exact ⟨not_roundTrips_of h (by intro y hy; cases hy; decide), ⟨_, h', rfl, rfl, rfl, rfl⟩⟩

/-- Negative numbers are written but never read. -/
theorem negative_number (extra : List Str) (radix label : Str) (m l : Int) (hl : Plain label) (h : m < 0 ∨ l < -1) :
    ¬ RoundTrips extra radix m l label := by
  rw [roundTrips_iff extra hl]
  rintro ⟨_, _, h1, h2⟩
  rcases h with h | h
  · omega
  · rcases h2 with h2 | h2 <;> omega

/-- A parsed name need not format back to the file it was read from: the number of digits is not kept. -/
theorem digits_not_kept : ∃ f n, parse [] f = some n ∧ xiafilename n.radix n.mapnum n.linenum n.label ≠ f := by
  refine ⟨str "s_xia00_00003_0000_0001.edf", ⟨str "s", 3, 1, str "xia00", str "xia", str "00"⟩, ?_, ?_⟩ <;> decide +kernel

/-- The dot before the extension is any character. -/
theorem any_extension_dot : (parse [] (str "s_xia00_0003_0000_0001xedf")).isSome = true := by decide +kernel

/-! ## files that are lost -/

/-- `xiagroupdetectors` on two lines with two detectors: the files of the first line are gone. -/
theorem xiagroupdetectors_loses_lines :
    xiagroupdetectors [] [str "s_xia00_0003_0000_0000.edf", str "s_xia01_0003_0000_0000.edf",
        str "s_xia00_0003_0000_0001.edf", str "s_xia01_0003_0000_0001.edf"] =
      some [(str "00", [(str "xia", [str "s_xia00_0003_0000_0001.edf"])]), (str "01", [(str "xia", [str "s_xia01_0003_0000_0001.edf"])])] := by
  decide +kernel

/-- Two labels with the same detector and base label: only one file remains. -/
theorem xiagroupdetectors_same_key :
    xiagroupdetectors [] [str "s_xmap_a_00_0003_0000.edf", str "s_xmap_a_0_0003_0000.edf", str "s_xmap_a00_0003_0000.edf"] =
      some [(str "00", [(str "xmap_a", [str "s_xmap_a_00_0003_0000.edf"])]), (str "0", [(str "xmap_a", [str "s_xmap_a_0_0003_0000.edf"])])] := by
  decide +kernel

/-- `xiagroupmaps` on two radices (outside its documentation): a file is gone. -/
theorem xiagroupmaps_loses_radix :
    xiagroupmaps [] [str "r_xia00_0001_0000_0000.edf", str "r_xia00_0002_0000_0000.edf", str "s_xia00_0001_0000_0000.edf"] =
      some [(1, [(0, [str "s_xia00_0001_0000_0000.edf"])]), (2, [(0, [str "r_xia00_0002_0000_0000.edf"])])] := by decide +kernel

/-- `xiagrouplines` on two maps (outside its documentation): a file is gone. -/
theorem xiagrouplines_loses_map :
    xiagrouplines [] [str "s_xia00_0001_0000_0000.edf", str "s_xia00_0001_0000_0001.edf", str "s_xia00_0002_0000_0000.edf"] =
      some [(0, [str "s_xia00_0002_0000_0000.edf"]), (1, [str "s_xia00_0001_0000_0001.edf"])] := by decide +kernel

end SC.Xia
