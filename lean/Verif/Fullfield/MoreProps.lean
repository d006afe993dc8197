import Verif.Fullfield.LibProps
/-! # Default exposure and missing data -/
namespace SC.Fullfield

open SC.Py

/-- **C64.**  An image without exposure time in its header has the default one: for the dark and for the normalisation. -/
theorem default_exposure (num : Str → ℚ) (p : Params) (lib : DarkLib) (f : File) (hf : Dict.get? f.header p.frametimelabel = none) (img : Img)
    (h : getnormalizedimage num p lib [f] = .ok img) (i j : Nat) :
    img.px i j = ((procraw p f.img).px i j - darkFrame (darkOf num p lib p.frametimedefault) i j * nframes num p f) /
      (num p.frametimedefault * nframes num p f) := by
  obtain ⟨_, h2⟩ := norm_spec num p lib [f] img h
  rw [h2]
  simp [net, exposure, frametime, hf]

theorem libLoop_skip (add : Lib → Str → Key → CamRoi → Lib) (fs : Str → File) (p : Params) (files : List Str)
    (hf : ∀ f ∈ files, Dict.get? (fs f).header p.stacklabel = none) (st : Lib) :
    libLoop add fs p (files.zip (List.replicate files.length none)) st = .ok st := by
  induction files generalizing st with
  | nil => rfl
  | cons f r ih =>
    rw [List.length_cons, List.replicate_succ, List.zip_cons_cons]
    unfold libLoop
    have : fileKey p (fs f) none = none := by simp [fileKey, hf f (by simp)]
    rw [this]
    exact ih (fun g hg => hf g (by simp [hg])) st

/-- **C64.**  When no file has a stack value there are no data: IOError. -/
theorem no_stackvalues (val : Key → ℚ) (fs : Str → File) (p : Params) (datafiles flatfiles : List Str)
    (h1 : p.datastackvalues.length ≠ datafiles.length ∨ p.datastackvalues = []) (h2 : p.flatstackvalues.length ≠ flatfiles.length ∨ p.flatstackvalues = [])
    (hd : ∀ f ∈ datafiles, Dict.get? (fs f).header p.stacklabel = none) (hf : ∀ f ∈ flatfiles, Dict.get? (fs f).header p.stacklabel = none) :
    dataflatlibrary val fs p datafiles flatfiles = .error .ioError := by
  unfold dataflatlibrary collectFiles stackvalues
  rw [if_pos h1.symm, if_pos h2.symm, libLoop_skip _ _ _ _ hd]
  simp only
  rw [libLoop_skip _ _ _ _ hf]

end SC.Fullfield
