import Verif.Fullfield.Props
/-! # Dark images and normalised images -/
namespace SC.Fullfield

open SC.Py

variable (num : Str → ℚ) (p : Params)

/-! ## Dark images -/

theorem addImg_ok (a b : Img) (h : SameShape a b) : addImg a b = .ok ⟨a.rows, a.cols, fun i j => a.px i j + b.px i j⟩ := by
  unfold addImg
  exact if_pos h

theorem addImg_eq (a b c : Img) (h : addImg a b = .ok c) :
    SameShape a b ∧ c = ⟨a.rows, a.cols, fun i j => a.px i j + b.px i j⟩ := by
  unfold addImg at h
  split at h
  · next hs => cases h; exact ⟨hs, rfl⟩
  · cases h

/-- What the library has for an exposure time. -/
def DarkIs (files : List File) (o : Option (Img × ℚ)) : Prop :=
  (files = [] → o = none) ∧ (files ≠ [] → ∃ img, o = some (img, (files.map (nframes num p)).sum) ∧
    (∀ f ∈ files, SameShape img (procraw p f.img)) ∧
    ∀ i j, img.px i j = (files.map fun f => (procraw p f.img).px i j).sum)

theorem darkLoop_spec (files seen : List File) (lib lib' : DarkLib) (h : darkLoop num p files lib = .ok lib') (t : Str)
    (hl : DarkIs num p (seen.filter fun f => frametime p f = t) (Dict.get? lib t)) :
    DarkIs num p ((seen ++ files).filter fun f => frametime p f = t) (Dict.get? lib' t) := by
  induction files generalizing seen lib with
  | nil => cases h; simpa using hl
  | cons f r ih =>
    have hcons : seen ++ f :: r = (seen ++ [f]) ++ r := by simp
    rw [hcons]
    simp only [darkLoop] at h
    cases hg : Dict.get? lib (frametime p f) with
    | none =>
      rw [hg] at h
      apply ih (seen ++ [f]) _ h
      rw [Dict.get?_set, List.filter_append]
      by_cases ht : frametime p f = t
      · rw [if_pos ht]
        have hnil : (seen.filter fun f => frametime p f = t) = [] := by
          by_contra hne
          obtain ⟨img, himg, -⟩ := hl.2 hne
          rw [← ht, hg] at himg
          cases himg
        rw [hnil]
        refine ⟨fun hc => by simp [ht] at hc, fun _ => ⟨procraw p f.img, by simp [ht], ?_, ?_⟩⟩
        · intro g hgm
          simp [ht] at hgm
          subst hgm
          exact ⟨rfl, rfl⟩
        · intro i j; simp [ht]
      · rw [if_neg ht]
        simpa [ht] using hl
    | some d =>
      rw [hg] at h
      simp only at h
      cases ha : addImg d.1 (procraw p f.img) with
      | error e => rw [ha] at h; cases h
      | ok img =>
        rw [ha] at h
        apply ih (seen ++ [f]) _ h
        rw [Dict.get?_set, List.filter_append]
        by_cases ht : frametime p f = t
        · rw [if_pos ht]
          have hne : (seen.filter fun f => frametime p f = t) ≠ [] := by
            intro hc
            have := hl.1 hc
            rw [← ht, hg] at this
            cases this
          obtain ⟨x, hx, hsh, hpx⟩ := hl.2 hne
          rw [← ht, hg] at hx
          obtain ⟨hs, himg⟩ := addImg_eq _ _ _ ha
          cases hx
          refine ⟨fun hc => by simp [ht] at hc, fun _ => ⟨img, by simp [ht], ?_, ?_⟩⟩
          · intro g hgm
            rcases List.mem_append.1 hgm with hgm | hgm
            · rw [himg]; exact hsh g hgm
            · simp [ht] at hgm
              subst hgm
              rw [himg]; exact hs
          · intro i j
            rw [himg]
            simp [ht, hpx i j]
        · rw [if_neg ht]
          simpa [ht] using hl

/-- The dark for an exposure time: the sum of the images with this time, and the sum of their frames. -/
theorem dark_spec (files : List File) (lib : DarkLib) (h : darklibrary num p files = .ok lib) (t : Str) :
    DarkIs num p (files.filter fun f => frametime p f = t) (Dict.get? lib t) := by
  have := darkLoop_spec num p files [] [] lib h t ⟨fun _ => rfl, fun hc => absurd rfl hc⟩
  simpa using this

theorem darkLoop_ok (m n : Nat) (files : List File) (lib : DarkLib)
    (hf : ∀ f ∈ files, (procraw p f.img).rows = m ∧ (procraw p f.img).cols = n)
    (hl : ∀ t d, Dict.get? lib t = some d → d.1.rows = m ∧ d.1.cols = n) : ∃ lib', darkLoop num p files lib = .ok lib' := by
  induction files generalizing lib with
  | nil => exact ⟨lib, rfl⟩
  | cons f r ih =>
    have hff := hf f (by simp)
    have hr : ∀ f ∈ r, (procraw p f.img).rows = m ∧ (procraw p f.img).cols = n := fun g hg => hf g (by simp [hg])
    simp only [darkLoop]
    cases hg : Dict.get? lib (frametime p f) with
    | none =>
      apply ih _ hr
      intro t d hd
      rw [Dict.get?_set] at hd
      split at hd
      · cases hd; exact hff
      · exact hl t d hd
    | some d =>
      have hd := hl _ _ hg
      simp only
      rw [addImg_ok _ _ ⟨by rw [hd.1, hff.1], by rw [hd.2, hff.2]⟩]
      apply ih _ hr
      intro t e he
      rw [Dict.get?_set] at he
      split at he
      · cases he; exact hd
      · exact hl t e he

/-- Dark images of one shape are accepted. -/
theorem dark_ok (m n : Nat) (files : List File) (hf : ∀ f ∈ files, (procraw p f.img).rows = m ∧ (procraw p f.img).cols = n) :
    ∃ lib, darklibrary num p files = .ok lib :=
  darkLoop_ok num p m n files [] hf (fun t d hd => by cases hd)

/-! ## Normalised images -/

variable (lib : DarkLib)

/-- The counts of a file without dark. -/
def net (f : File) (i j : Nat) : ℚ :=
  (procraw p f.img).px i j - darkFrame (darkOf num p lib (frametime p f)) i j * nframes num p f

/-- The exposure of a file. -/
def exposure (f : File) : ℚ := num (frametime p f) * nframes num p f

theorem subDark_spec (img : Img) (d : DarkData × ℚ) (n : ℚ) :
    (∃ x, subDark img d n = .ok x) ↔ Fits img d.1 := by
  obtain ⟨d, k⟩ := d
  cases d with
  | number q => simp [subDark, Fits]
  | image x =>
    simp only [subDark, Fits, SameShape]
    split <;> simp_all

theorem subDark_eq (img x : Img) (d : DarkData × ℚ) (n : ℚ) (h : subDark img d n = .ok x) :
    x = ⟨img.rows, img.cols, fun i j => img.px i j - darkFrame d i j * n⟩ := by
  obtain ⟨d, k⟩ := d
  cases d with
  | number q => cases h; rfl
  | image y =>
    simp only [subDark] at h
    split at h
    · cases h; rfl
    · cases h

theorem normLoop_some (files : List File) (img0 : Img) (t0 : ℚ) (o : Option (Img × ℚ))
    (h : normLoop num p lib files (some (img0, t0)) = .ok o) :
    (∀ f ∈ files, SameShape img0 (procraw p f.img)) ∧ ∃ img, o = some (img, t0 + (files.map (exposure num p)).sum) ∧ SameShape img0 img ∧
      ∀ i j, img.px i j = img0.px i j + (files.map fun f => net num p lib f i j).sum := by
  induction files generalizing img0 t0 with
  | nil => cases h; exact ⟨by simp, img0, by simp, ⟨rfl, rfl⟩, by simp⟩
  | cons f r ih =>
    simp only [normLoop] at h
    cases hs : subDark (procraw p f.img) (darkOf num p lib (frametime p f)) (nframes num p f) with
    | error e => rw [hs] at h; cases h
    | ok data =>
      rw [hs] at h
      simp only at h
      have hd := subDark_eq _ _ _ _ hs
      cases ha : addImg img0 data with
      | error e => rw [ha] at h; cases h
      | ok img1 =>
        rw [ha] at h
        obtain ⟨hsh, h1⟩ := addImg_eq _ _ _ ha
        obtain ⟨hall, img, he, hsh', hpx⟩ := ih img1 _ h
        subst hd h1
        refine ⟨?_, img, ?_, hsh', ?_⟩
        · intro g hg
          rcases List.mem_cons.1 hg with rfl | hg
          · exact hsh
          · exact hall g hg
        · rw [he]; simp [exposure]; ring
        · intro i j
          rw [hpx]
          simp only [List.map_cons, List.sum_cons, net]
          ring

/-- The image is the sum of the counts without dark, divided by the total exposure. -/
theorem norm_spec (files : List File) (img : Img) (h : getnormalizedimage num p lib files = .ok img) :
    (∀ f ∈ files, SameShape img (procraw p f.img)) ∧
    ∀ i j, img.px i j = (files.map fun f => net num p lib f i j).sum / (files.map (exposure num p)).sum := by
  unfold getnormalizedimage at h
  cases files with
  | nil => cases h
  | cons f r =>
    simp only [normLoop] at h
    cases hs : subDark (procraw p f.img) (darkOf num p lib (frametime p f)) (nframes num p f) with
    | error e => rw [hs] at h; cases h
    | ok data =>
      rw [hs] at h
      simp only at h
      have hd := subDark_eq _ _ _ _ hs
      cases hl : normLoop num p lib r (some (data, num (frametime p f) * nframes num p f)) with
      | error e => rw [hl] at h; cases h
      | ok o =>
        rw [hl] at h
        obtain ⟨hall, x, rfl, hsh, hpx⟩ := normLoop_some num p lib r data _ o hl
        cases h
        subst hd
        refine ⟨?_, ?_⟩
        · intro g hg
          rcases List.mem_cons.1 hg with rfl | hg
          · exact ⟨hsh.1.symm, hsh.2.symm⟩
          · have := hall g hg
            exact ⟨hsh.1.symm.trans this.1, hsh.2.symm.trans this.2⟩
        · intro i j
          simp only [hpx, List.map_cons, List.sum_cons]
          rfl

theorem normLoop_ok (files : List File) (m n : Nat) (acc : Option (Img × ℚ))
    (hacc : ∀ x, acc = some x → x.1.rows = m ∧ x.1.cols = n)
    (hf : ∀ f ∈ files, (procraw p f.img).rows = m ∧ (procraw p f.img).cols = n ∧ Fits (procraw p f.img) (darkOf num p lib (frametime p f)).1) :
    ∃ o, normLoop num p lib files acc = .ok o ∧ (files ≠ [] ∨ acc ≠ none → o ≠ none) := by
  induction files generalizing acc with
  | nil => exact ⟨acc, rfl, by simp⟩
  | cons f r ih =>
    obtain ⟨h1, h2, h3⟩ := hf f (by simp)
    have hr := fun g hg => hf g (List.mem_cons_of_mem f hg)
    obtain ⟨data, hd⟩ := (subDark_spec _ _ (nframes num p f)).2 h3
    have he := subDark_eq _ _ _ _ hd
    simp only [normLoop, hd]
    cases acc with
    | none =>
      obtain ⟨o, ho, hne⟩ := ih (some (data, num (frametime p f) * nframes num p f)) (by
        intro x hx; cases hx; rw [he]; exact ⟨h1, h2⟩) hr
      exact ⟨o, ho, fun _ => hne (Or.inr (by simp))⟩
    | some a =>
      obtain ⟨img, t⟩ := a
      have ha := hacc _ rfl
      simp only
      rw [addImg_ok img data (by rw [he]; exact ⟨by rw [ha.1, h1], by rw [ha.2, h2]⟩)]
      obtain ⟨o, ho, hne⟩ := ih (some (⟨img.rows, img.cols, fun i j => img.px i j + data.px i j⟩, t + num (frametime p f) * nframes num p f)) (by
        intro x hx; cases hx; exact ha) hr
      exact ⟨o, ho, fun _ => hne (Or.inr (by simp))⟩

/-- Images of one shape, with darks of that shape, can be normalised; without images there is a TypeError. -/
theorem norm_ok (files : List File) (hne : files ≠ []) (m n : Nat)
    (hf : ∀ f ∈ files, (procraw p f.img).rows = m ∧ (procraw p f.img).cols = n ∧ Fits (procraw p f.img) (darkOf num p lib (frametime p f)).1) :
    ∃ img, getnormalizedimage num p lib files = .ok img := by
  obtain ⟨o, ho, hn⟩ := normLoop_ok num p lib files m n none (by simp) hf
  unfold getnormalizedimage
  rw [ho]
  cases o with
  | none => exact absurd rfl (hn (Or.inl hne))
  | some x => exact ⟨_, rfl⟩

theorem norm_empty : getnormalizedimage num p lib [] = .error .typeError := rfl

/-- The order of the files does not matter. -/
theorem norm_perm (l l' : List File) (h : l.Perm l') (a b : Img) (ha : getnormalizedimage num p lib l = .ok a)
    (hb : getnormalizedimage num p lib l' = .ok b) : SameImg a b := by
  obtain ⟨a1, a2⟩ := norm_spec num p lib l a ha
  obtain ⟨b1, b2⟩ := norm_spec num p lib l' b hb
  have hne : l ≠ [] := by intro hc; subst hc; cases ha
  obtain ⟨f, hf⟩ := List.exists_mem_of_ne_nil l hne
  have s1 := a1 f hf
  have s2 := b1 f (h.mem_iff.1 hf)
  refine ⟨s1.1.trans s2.1.symm, s1.2.trans s2.2.symm, fun i j _ _ => ?_⟩
  rw [a2, b2, (h.map _).sum_eq, (h.map _).sum_eq]

/-! ## The images are right -/

theorem sum_div_const {α : Type} (l : List α) (f g : α → ℚ) (r : ℚ) (h : ∀ x ∈ l, f x = r * g x) :
    (l.map f).sum = r * (l.map g).sum := by
  rw [← sum_mul]
  congr 1
  exact List.map_congr_left h

theorem sum_pos' {α : Type} (l : List α) (f : α → ℚ) (hne : l ≠ []) (h : ∀ x ∈ l, 0 < f x) : 0 < (l.map f).sum := by
  induction l with
  | nil => exact absurd rfl hne
  | cons a l ih =>
    have ha := h a (by simp)
    rw [List.map_cons, List.sum_cons]
    by_cases hl : l = []
    · subst hl; simpa using ha
    · exact add_pos ha (ih hl fun x hx => h x (by simp [hx]))

/-- A detector with a dark signal of its own for each exposure time and a constant rate in every pixel: the image is the
rate, whatever the exposures and numbers of frames are, cropped and rebinned as asked for. -/
theorem norm_exact (darks files : List File) (m n : Nat) (rate : Nat → Nat → ℚ) (D : Str → Nat → Nat → ℚ)
    (hr : 0 < p.rebin.1 ∧ 0 < p.rebin.2) (hne : files ≠ [])
    (hd : ∀ f ∈ darks, f.img = ⟨m, n, fun i j => nframes num p f * D (frametime p f) i j⟩ ∧ 0 < nframes num p f)
    (hf : ∀ f ∈ files, f.img = ⟨m, n, fun i j => nframes num p f * (D (frametime p f) i j + num (frametime p f) * rate i j)⟩)
    (ht : ∀ f ∈ files, ∃ g ∈ darks, frametime p g = frametime p f)
    (he : (files.map (exposure num p)).sum ≠ 0) :
    ∃ lib img, darklibrary num p darks = .ok lib ∧ getnormalizedimage num p lib files = .ok img ∧
      SameImg img (procraw p ⟨m, n, rate⟩) := by
  have hshape : ∀ (x : Img), x.rows = m → x.cols = n → (procraw p x).rows = (procraw p ⟨m, n, rate⟩).rows ∧
      (procraw p x).cols = (procraw p ⟨m, n, rate⟩).cols := fun x h1 h2 => procraw_same p x ⟨m, n, rate⟩ hr ⟨h1, h2⟩
  obtain ⟨lib, hlib⟩ := dark_ok num p (procraw p ⟨m, n, rate⟩).rows (procraw p ⟨m, n, rate⟩).cols darks (fun f hf' => by
    rw [(hd f hf').1]; exact hshape _ rfl rfl)
  -- the dark of one frame
  have hdark : ∀ f ∈ files, ∃ x k, Dict.get? lib (frametime p f) = some (x, k) ∧ SameShape (procraw p ⟨m, n, rate⟩) x ∧
      ∀ i j, j < (procraw p ⟨m, n, rate⟩).cols → x.px i j / k = (procraw p ⟨m, n, D (frametime p f)⟩).px i j := by
    intro f hfm
    obtain ⟨g, hg, hgt⟩ := ht f hfm
    have hmem : g ∈ darks.filter fun f' => frametime p f' = frametime p f := List.mem_filter.2 ⟨hg, by simpa using hgt⟩
    obtain ⟨x, hx, hsh, hpx⟩ := (dark_spec num p darks lib hlib (frametime p f)).2 (List.ne_nil_of_mem hmem)
    refine ⟨x, _, hx, ?_, ?_⟩
    · have h1 := hsh g hmem
      rw [(hd g hg).1] at h1
      have h2 := hshape ⟨m, n, fun i j => nframes num p g * D (frametime p g) i j⟩ rfl rfl
      exact ⟨h2.1.symm.trans h1.1.symm, h2.2.symm.trans h1.2.symm⟩
    · intro i j hj
      rw [hpx]
      have hk : ∀ f' ∈ darks.filter fun f' => frametime p f' = frametime p f, (procraw p f'.img).px i j =
          (procraw p ⟨m, n, D (frametime p f)⟩).px i j * nframes num p f' := by
        intro f' hf'
        obtain ⟨hf1, hf2⟩ := List.mem_filter.1 hf'
        simp only [decide_eq_true_eq] at hf2
        rw [(hd f' hf1).1, hf2]
        have hl := procraw_linear p hr m n (nframes num p f') 0 (D (frametime p f)) (D (frametime p f)) i j
          ((hshape ⟨m, n, D (frametime p f)⟩ rfl rfl).2 ▸ hj)
        simp only [zero_mul, add_zero] at hl
        rw [hl]; ring
      rw [sum_div_const _ _ (nframes num p) _ hk]
      have hpos : 0 < ((darks.filter fun f' => frametime p f' = frametime p f).map (nframes num p)).sum := by
        apply sum_pos' _ _ (List.ne_nil_of_mem hmem)
        intro f' hf'
        exact (hd f' (List.mem_filter.1 hf').1).2
      exact mul_div_cancel_right₀ _ hpos.ne'
  have hfits : ∀ f ∈ files, (procraw p f.img).rows = (procraw p ⟨m, n, rate⟩).rows ∧ (procraw p f.img).cols = (procraw p ⟨m, n, rate⟩).cols ∧
      Fits (procraw p f.img) (darkOf num p lib (frametime p f)).1 := by
    intro f hfm
    have hs : (procraw p f.img).rows = (procraw p ⟨m, n, rate⟩).rows ∧ (procraw p f.img).cols = (procraw p ⟨m, n, rate⟩).cols := by
      rw [hf f hfm]; exact hshape _ rfl rfl
    obtain ⟨x, k, hx, hsx, -⟩ := hdark f hfm
    refine ⟨hs.1, hs.2, ?_⟩
    unfold darkOf
    rw [hx]
    exact ⟨hs.1.trans hsx.1, hs.2.trans hsx.2⟩
  obtain ⟨img, himg⟩ := norm_ok num p lib files hne _ _ hfits
  obtain ⟨h1, h2⟩ := norm_spec num p lib files img himg
  refine ⟨lib, img, hlib, himg, ?_⟩
  obtain ⟨f0, hf0⟩ := List.exists_mem_of_ne_nil files hne
  have hs0 := h1 f0 hf0
  have hs1 := hfits f0 hf0
  refine ⟨hs0.1.trans hs1.1, hs0.2.trans hs1.2.1, fun i j hi hj => ?_⟩
  have hj' : j < (procraw p ⟨m, n, rate⟩).cols := by rw [hs0.2, hs1.2.1] at hj; exact hj
  have hnet : ∀ f ∈ files, net num p lib f i j = (procraw p ⟨m, n, rate⟩).px i j * exposure num p f := by
    intro f hfm
    obtain ⟨x, k, hx, -, hxk⟩ := hdark f hfm
    have hdf : darkFrame (darkOf num p lib (frametime p f)) i j = (procraw p ⟨m, n, D (frametime p f)⟩).px i j := by
      unfold darkOf
      rw [hx]
      exact hxk i j hj'
    unfold net exposure
    rw [hdf, hf f hfm]
    have hl := procraw_linear p hr m n (nframes num p f) (nframes num p f * num (frametime p f)) (D (frametime p f)) rate i j
      ((hshape ⟨m, n, D (frametime p f)⟩ rfl rfl).2 ▸ hj')
    have hfun : (fun i j => nframes num p f * (D (frametime p f) i j + num (frametime p f) * rate i j)) =
        fun i j => nframes num p f * D (frametime p f) i j + nframes num p f * num (frametime p f) * rate i j := by
      funext i j; ring
    rw [hfun, hl]
    ring
  rw [h2, sum_div_const files _ (exposure num p) _ hnet]
  exact mul_div_cancel_right₀ _ he

/-- Without dark images the dark is a number for each bin, not for each pixel: the image is the rate plus the dark of the
other pixels of the bin, so it is right without rebinning. -/
theorem norm_default (files : List File) (m n : Nat) (rate : Nat → Nat → ℚ) (hr : 0 < p.rebin.1 ∧ 0 < p.rebin.2)
    (hf : ∀ f ∈ files, f.img = ⟨m, n, fun i j => nframes num p f * (p.darkzero + p.darkgain * num (frametime p f) + num (frametime p f) * rate i j)⟩)
    (he : (files.map (exposure num p)).sum ≠ 0) (img : Img) (h : getnormalizedimage num p [] files = .ok img) (i j : Nat)
    (hj : j < img.cols) :
    img.px i j = (procraw p ⟨m, n, rate⟩).px i j + ((p.rebin.1 : ℚ) * p.rebin.2 - 1) *
      (files.map fun f => nframes num p f * (p.darkzero + p.darkgain * num (frametime p f))).sum / (files.map (exposure num p)).sum := by
  obtain ⟨h1, h2⟩ := norm_spec num p [] files img h
  have hne : files ≠ [] := by intro hc; subst hc; cases h
  obtain ⟨f0, hf0⟩ := List.exists_mem_of_ne_nil files hne
  have hj' : j < (procraw p ⟨m, n, rate⟩).cols := by
    have := (h1 f0 hf0).2
    rw [this, hf f0 hf0] at hj
    have e := (procraw_same p ⟨m, n, fun i j => nframes num p f0 * (p.darkzero + p.darkgain * num (frametime p f0) + num (frametime p f0) * rate i j)⟩
      ⟨m, n, rate⟩ hr ⟨rfl, rfl⟩).2
    rw [← e]
    exact hj
  have hnet : ∀ f ∈ files, net num p [] f i j = (procraw p ⟨m, n, rate⟩).px i j * exposure num p f +
      ((p.rebin.1 : ℚ) * p.rebin.2 - 1) * (nframes num p f * (p.darkzero + p.darkgain * num (frametime p f))) := by
    intro f hfm
    have hdf : darkFrame (darkOf num p [] (frametime p f)) i j = p.darkzero + p.darkgain * num (frametime p f) := by
      simp [darkOf, Dict.get?, darkFrame]
    unfold net exposure
    rw [hdf, hf f hfm]
    have e2 := (procraw_same p ⟨m, n, rate⟩ ⟨m, n, fun i j => nframes num p f * (p.darkzero + p.darkgain * num (frametime p f) + num (frametime p f) * rate i j)⟩ hr ⟨rfl, rfl⟩).2
    rw [procraw_pixel p _ hr i j (e2 ▸ hj'), procraw_pixel p _ hr i j hj']
    simp only
    rw [boxSum_mul, boxSum_add, boxSum_const, boxSum_mul]
    ring
  have hsum : (files.map fun f => net num p [] f i j).sum = (procraw p ⟨m, n, rate⟩).px i j * (files.map (exposure num p)).sum +
      ((p.rebin.1 : ℚ) * p.rebin.2 - 1) * (files.map fun f => nframes num p f * (p.darkzero + p.darkgain * num (frametime p f))).sum := by
    rw [← sum_mul, ← sum_mul, ← sum_add]
    congr 1
    exact List.map_congr_left hnet
  rw [h2, hsum]
  field_simp

/-- With bins of two pixels and a constant dark of one the image is not the rate. -/
theorem norm_default_wrong : ∃ (p : Params) (f : File), f.img = ⟨1, 2, fun _ _ => 1 + 3⟩ ∧ p.darkzero = 1 ∧ p.darkgain = 0 ∧ p.rebin = (1, 2) ∧
    ((getnormalizedimage (fun _ => 1) p [] [f]).toOption.map fun x => x.px 0 0) = some 7 ∧ (procraw p ⟨1, 2, fun _ _ => 3⟩).px 0 0 = 6 :=
  ⟨⟨none, (1, 2), [], [], [], [], [], 1, 0, [], [], false, false, false⟩, ⟨[], ⟨1, 2, fun _ _ => 1 + 3⟩⟩, rfl, rfl, rfl, rfl,
    by decide +kernel, by decide +kernel⟩

/-- Times are compared as texts: a dark with the same time written in another way is not used. -/
theorem dark_text (t t' : Str) (x : Img × ℚ) (h : t ≠ t') :
    darkOf num p [(t, x)] t' = (.number (p.darkzero + p.darkgain * num t'), 1) := by
  simp [darkOf, Dict.get?, h]

end SC.Fullfield
