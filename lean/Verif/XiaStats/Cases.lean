import Verif.XiaStats.Props
/-! # C29 and C30: concrete cases and deviations -/
namespace SC.XiaStats
open SC.Naming SC.Xia SC.Linop

/-- Two spectra, six statistics, two detectors. -/
def someStats : List (List (List Nat)) :=
  [[[0, 1], [2, 3], [4, 5], [6, 7], [8, 9], [10, 11]], [[20, 21], [22, 23], [24, 25], [26, 27], [28, 29], [30, 31]]]

example : Shaped 6 2 someStats := by
  intro m hm
  simp only [someStats, List.mem_cons, List.not_mem_nil, or_false] at hm
  rcases hm with rfl | rfl <;> refine ⟨rfl, ?_⟩ <;> decide

example : (saveStats 6 2 someStats).image = [[0, 2, 4, 6, 8, 10, 1, 3, 5, 7, 9, 11], [20, 22, 24, 26, 28, 30, 21, 23, 25, 27, 29, 31]] := by
  decide +kernel

example : saveLoad 0 6 2 [defaultLabel 0, defaultLabel 1] [1] true someStats = some [[[5], [7]], [[25], [27]]] := by decide

/-- Labels `xia01` and `xia00`: each detector gets the statistics of the other. -/
theorem labels_swap_stats : saveLoad 0 6 2 ["xia01".toList, "xia00".toList] [0, 1] true someStats =
    some [[[5, 4], [7, 6]], [[25, 24], [27, 26]]] := by decide

/-- Labels `xia01` and `xia02`: the second detector is not found (ValueError). -/
theorem labels_raise : saveLoad 0 6 2 ["xia01".toList, "xia02".toList] [0, 1] true someStats = none := by decide

/-- A sum label has no number: zeros instead of the saved statistics. -/
theorem label_without_number : saveLoad 0 6 2 ["xiaS0".toList, "xia01".toList] [0, 1] true someStats =
    some [[[0, 5], [0, 7]], [[0, 25], [0, 27]]] := by decide

/-- Three statistics of two detectors come back as six statistics of one detector. -/
theorem other_nstats_scrambled :
    saveLoad 0 3 2 [defaultLabel 0, defaultLabel 1] [0] false [[[1, 2], [3, 4], [5, 6]]] =
      some [[[1], [3], [5], [2], [4], [6]]] := by decide

/-- Four statistics of one detector cannot be read. -/
theorem other_nstats_raise : saveLoad 0 4 1 [defaultLabel 0] [0] false [[[1], [2], [3], [4]]] = none := by decide

/-- The files of detector 100 and higher have names that are not read as the names of XIA files. -/
theorem default_label_100 : parse [] (xiafilename "a".toList 0 0 (defaultLabel 100)) = none := by
  decide +kernel

example : deadtimecorrector (K := ℚ) [.fin 2000, .fin 999, .fin 5000, .nan, .pinf, .fin 4000] [.fin 1000, .fin 1, .fin 0, .fin 3, .fin 1, .fin 8000] =
    [.fin 2, .fin 1, .fin 1, .fin 1, .fin 1, .fin 1] := by decide +kernel

example : ValidRates (K := ℚ) (.fin 2000) (.fin 1000) := ⟨2000, 1000, rfl, rfl, by norm_num, by norm_num, by norm_num⟩

example : ¬ ValidRates (K := ℚ) (.fin 5000) (.fin 0) := by
  rintro ⟨a, b, h1, h2, _, h4, _⟩
  simp only [F.fin.injEq] at h1 h2
  exact h4 h2.symm

example : normalizer (K := ℚ) [.fin 0, .fin 3, .nan] = [.fin 1, .fin 3, .nan] := by decide +kernel

/-- Below 1000 counts per second a large dead time is not corrected. -/
theorem low_rates_uncorrected : deadtimecorrector (K := ℚ) [.fin 999] [.fin 1] = [.fin 1] := by decide +kernel

/-- A monitor that is NaN makes the spectrum NaN. -/
theorem nan_monitor : (normalizer (K := ℚ) [.nan]).map (correct [.fin 3] (deadtimecorrector [.fin 2000] [.fin 1000])) = [.nan] := by
  decide +kernel

end SC.XiaStats
