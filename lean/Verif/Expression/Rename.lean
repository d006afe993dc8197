import Verif.Expression.Eval
import Verif.IntBase.Props
/-! # Placeholders: templates as texts and holes, renaming -/
namespace SC.Expression

/-- A template is made of texts and placeholders. -/
inductive Piece where
  | text (s : Str)
  | hole (n : Str)

def Piece.render : Piece → Str
  | .text s => s
  | .hole n => braces n

def render (ps : List Piece) : Str := ps.flatMap Piece.render

/-- No braces in the texts, no braces or line breaks in the names. -/
def Piece.Ok : Piece → Prop
  | .text s => ∀ c ∈ s, c ≠ '{'
  | .hole n => Placeholder n

def holes : List Piece → List Str
  | [] => []
  | .text _ :: ps => holes ps
  | .hole n :: ps => n :: holes ps

theorem holes_append (a b : List Piece) : holes (a ++ b) = holes a ++ holes b := by
  induction a with
  | nil => rfl
  | cons p a ih => cases p <;> simp [holes, ih]

theorem render_append (a b : List Piece) : render (a ++ b) = render a ++ render b := by
  simp [render]

theorem render_cons (p : Piece) (ps : List Piece) : render (p :: ps) = p.render ++ render ps := by
  simp [render]

/-- Replace the placeholder `n` by the text `f n`. -/
def Piece.fill (f : Str → Str) : Piece → Piece
  | .text s => .text s
  | .hole n => .text (f n)

/-! ## Finding the names -/

theorem closing_eq {n : Str} (hn : Placeholder n) (r : Str) : closing (n ++ '}' :: r) = some (n, r) := by
  induction n with
  | nil => simp [closing]
  | cons c n ih =>
    obtain ⟨_, h2, h3⟩ := hn c (by simp)
    simp only [List.cons_append, closing]
    rw [if_neg h2, if_neg h3, ih fun d hd => hn d (by simp [hd])]
    rfl

theorem findallN_text {s : Str} (hs : ∀ c ∈ s, c ≠ '{') (r : Str) (k : Nat) :
    findallN (s.length + k) (s ++ r) = findallN k r := by
  induction s with
  | nil => simp
  | cons c s ih =>
    have : (c :: s).length + k = (s.length + k) + 1 := by simp; omega
    rw [this, List.cons_append, findallN, if_neg (hs c (by simp))]
    exact ih fun d hd => hs d (by simp [hd])

theorem findallN_render {ps : List Piece} (hp : ∀ p ∈ ps, p.Ok) {r : Str} {k : Nat}
    (hr : ∀ j, k ≤ j → findallN j r = []) (m : Nat) (hm : (render ps).length + k ≤ m) :
    findallN m (render ps ++ r) = holes ps := by
  induction ps generalizing m with
  | nil => exact hr m (by simpa [render] using hm)
  | cons p ps ih =>
    rw [render_cons] at hm ⊢
    have hp' : ∀ p ∈ ps, p.Ok := fun q hq => hp q (by simp [hq])
    cases p with
    | text s =>
      have hs : ∀ c ∈ s, c ≠ '{' := hp (.text s) (by simp)
      simp only [Piece.render, List.length_append] at hm ⊢
      obtain ⟨j, rfl⟩ : ∃ j, m = s.length + j := ⟨m - s.length, by omega⟩
      rw [List.append_assoc, findallN_text hs]
      exact ih hp' j (by omega)
    | hole n =>
      have hn : Placeholder n := hp (.hole n) (by simp)
      simp only [Piece.render, List.length_append, braces, List.length_cons, List.length_nil] at hm ⊢
      obtain ⟨j, rfl⟩ : ∃ j, m = j + 1 := ⟨m - 1, by omega⟩
      have e : '{' :: n ++ ['}'] ++ render ps ++ r = '{' :: (n ++ '}' :: (render ps ++ r)) := by simp
      rw [e, findallN, if_pos rfl, closing_eq hn]
      simp only [holes]
      rw [ih hp' j (by omega)]

theorem findall_render {ps : List Piece} (hp : ∀ p ∈ ps, p.Ok) : findall (render ps) = holes ps := by
  have := findallN_render hp (r := []) (k := 0) (by intro j _; cases j <;> rfl) (render ps).length (by simp)
  simpa [findall] using this

/-! ## Replacing -/

theorem replaceN_text {old new s : Str} {n : Str} (ho : old = braces n) (hs : ∀ c ∈ s, c ≠ '{') (r : Str) (k : Nat) :
    replaceN old new (s.length + k) (s ++ r) = s ++ replaceN old new k r := by
  induction s with
  | nil => simp
  | cons c s ih =>
    have : (c :: s).length + k = (s.length + k) + 1 := by simp; omega
    rw [this, List.cons_append, replaceN]
    have hc : old.isPrefixOf (c :: (s ++ r)) = false := by
      subst ho
      simp [braces, List.isPrefixOf, Ne.symm (hs c (by simp))]
    rw [hc]
    simp only [Bool.false_eq_true, if_false, List.cons_append]
    rw [ih fun d hd => hs d (by simp [hd])]

/-- Brace-free names followed by a closing brace are equal when one is a prefix of the other. -/
theorem prefix_names {n m r : Str} (hn : Placeholder n) (hm : Placeholder m)
    (h : n ++ ['}'] <+: m ++ '}' :: r) : n = m := by
  induction n generalizing m with
  | nil =>
    cases m with
    | nil => rfl
    | cons c m =>
      obtain ⟨t, ht⟩ := h
      simp at ht
      exact absurd ht.1.symm (hm c (by simp)).2.1
  | cons d n ih =>
    cases m with
    | nil =>
      obtain ⟨t, ht⟩ := h
      simp at ht
      exact absurd ht.1 (hn d (by simp)).2.1
    | cons c m =>
      rw [List.cons_append, List.cons_append, List.cons_prefix_cons] at h
      rw [h.1, ih (fun x hx => hn x (by simp [hx])) (fun x hx => hm x (by simp [hx])) h.2]

/-- One placeholder replaced. -/
def Piece.put (n new : Str) : Piece → Piece
  | .text s => .text s
  | .hole m => if m = n then .text new else .hole m

theorem replaceN_render {n new : Str} (hn : Placeholder n) {ps : List Piece} (hp : ∀ p ∈ ps, p.Ok)
    {r : Str} (hr : ∀ c ∈ r, c ≠ '{') (m : Nat) (hm : (render ps).length + r.length ≤ m) :
    replaceN (braces n) new m (render ps ++ r) = render (ps.map (Piece.put n new)) ++ r := by
  induction ps generalizing m with
  | nil =>
    simp only [render, List.flatMap_nil, List.nil_append, List.map_nil, List.length_nil, Nat.zero_add] at hm ⊢
    obtain ⟨j, rfl⟩ : ∃ j, m = r.length + j := ⟨m - r.length, by omega⟩
    have := replaceN_text (new := new) rfl hr [] j (n := n)
    rw [List.append_nil] at this
    rw [this]
    cases j <;> simp [replaceN]
  | cons p ps ih =>
    rw [render_cons] at hm ⊢
    rw [List.map_cons, render_cons]
    have hp' : ∀ p ∈ ps, p.Ok := fun q hq => hp q (by simp [hq])
    cases p with
    | text s =>
      have hs : ∀ c ∈ s, c ≠ '{' := hp (.text s) (by simp)
      simp only [Piece.render, List.length_append, Piece.put] at hm ⊢
      obtain ⟨j, rfl⟩ : ∃ j, m = s.length + j := ⟨m - s.length, by omega⟩
      rw [List.append_assoc, replaceN_text rfl hs, ih hp' j (by omega), List.append_assoc]
    | hole k =>
      have hk : Placeholder k := hp (.hole k) (by simp)
      simp only [Piece.render, List.length_append, braces, List.length_cons, List.length_nil] at hm
      obtain ⟨j, rfl⟩ : ∃ j, m = j + 1 := ⟨m - 1, by omega⟩
      have e : braces k ++ render ps ++ r = '{' :: (k ++ '}' :: (render ps ++ r)) := by simp [braces]
      simp only [Piece.render, Piece.put]
      rw [e, replaceN]
      by_cases h : k = n
      · subst h
        have h1 : (braces k).isPrefixOf ('{' :: (k ++ '}' :: (render ps ++ r))) = true := by
          rw [List.isPrefixOf_iff_prefix]
          exact ⟨render ps ++ r, by simp [braces]⟩
        rw [h1, if_pos rfl, if_pos rfl]
        have h2 : ('{' :: (k ++ '}' :: (render ps ++ r))).drop (braces k).length = render ps ++ r := by
          have : '{' :: (k ++ '}' :: (render ps ++ r)) = braces k ++ (render ps ++ r) := by simp [braces]
          rw [this, List.drop_left]
        rw [h2, ih hp' j (by omega), List.append_assoc]
      · have h1 : (braces n).isPrefixOf ('{' :: (k ++ '}' :: (render ps ++ r))) = false := by
          rw [← Bool.not_eq_true, List.isPrefixOf_iff_prefix]
          intro hh
          unfold braces at hh
          rw [List.cons_append, List.cons_prefix_cons] at hh
          exact h (prefix_names hn hk hh.2).symm
        rw [h1, if_neg (by simp), if_neg h]
        have hk' : ∀ c ∈ k ++ ['}'], c ≠ '{' := by
          intro c hc
          simp only [List.mem_append, List.mem_singleton] at hc
          rcases hc with hc | rfl
          · exact (hk c hc).1
          · decide
        obtain ⟨i, rfl⟩ : ∃ i, j = (k ++ ['}']).length + i :=
          ⟨j - (k ++ ['}']).length, by simp only [List.length_append, List.length_cons, List.length_nil]; omega⟩
        have e2 : k ++ '}' :: (render ps ++ r) = (k ++ ['}']) ++ (render ps ++ r) := by simp
        rw [e2, replaceN_text rfl hk', ih hp' i (by
          simp only [List.length_append, List.length_cons, List.length_nil] at hm; omega)]
        simp [braces]

theorem replace_render {n new : Str} (hn : Placeholder n) {ps : List Piece} (hp : ∀ p ∈ ps, p.Ok) :
    replace (render ps) (braces n) new = render (ps.map (Piece.put n new)) := by
  have := replaceN_render hn (new := new) hp (r := []) (by simp) (render ps).length (by simp)
  simpa [replace] using this

/-! ## The new names -/

theorem newName_ok (i : Nat) : IntBase.int2base lowercase '-' (i : Int) = .ok (newName i) := by
  obtain ⟨s, ds, h, _⟩ := IntBase.int2base_spec lowercase '-' (by decide) i
  rw [newName, h]

theorem newName_value (i : Nat) : IntBase.base2int lowercase (newName i) = .ok i := by
  have := IntBase.base2int_int2base lowercase '-' (by decide) (by decide) i
  rw [newName_ok] at this
  exact this

theorem newName_injective {i j : Nat} (h : newName i = newName j) : i = j := by
  have := newName_value i
  rw [h, newName_value j] at this
  simpa using this.symm

theorem newName_zero : newName 0 = ['a'] := rfl

theorem newName_letters (i : Nat) : Letters (newName i) := by
  obtain ⟨s, ds, h, h1, h2, h3, h4⟩ := IntBase.int2base_spec lowercase '-' (by decide) i
  have e : newName i = s := by rw [newName, h]
  rw [e]
  constructor
  · rintro rfl
    rcases h4 with rfl | ⟨d, t, rfl, _⟩ <;> simp at h1
  · intro c hc
    have : some c ∈ ds.map (fun i => lowercase[i]?) := by rw [← h1]; exact List.mem_map_of_mem hc
    obtain ⟨d, _, hd⟩ := List.mem_map.1 this
    have hm := List.mem_of_getElem? hd
    revert c
    intro c _ _ _ hm
    have : ∀ c ∈ lowercase, c.isAlpha = true := by decide
    exact this c hm

/-- The new name of a placeholder. -/
def nameOf (names : List Str) (i : Nat) (n : Str) : Str := newName (i + names.idxOf n)

/-- What the loop over the fixed arguments does. -/
def Piece.assign (names : List Str) (i : Nat) : Piece → Piece
  | .text s => .text s
  | .hole n => if n ∈ names then .text (varText (nameOf names i n)) else .hole n

theorem letters_no_brace {n : Str} (h : Letters n) : ∀ c ∈ varText n, c ≠ '{' := by
  intro c hc
  simp only [varText, List.mem_cons] at hc
  rcases hc with rfl | rfl | rfl | rfl | hc
  · decide
  · decide
  · decide
  · decide
  · rintro rfl; exact absurd (h.2 _ hc) (by decide)

theorem put_ok {n new : Str} (hnew : ∀ c ∈ new, c ≠ '{') {p : Piece} (hp : p.Ok) : (p.put n new).Ok := by
  cases p with
  | text s => exact hp
  | hole m =>
    simp only [Piece.put]
    split
    · exact hnew
    · exact hp

/-- Counting the names: `enumerate`. -/
def numbered : Nat → List Str → List (Str × Str)
  | _, [] => []
  | i, n :: names => (n, newName i) :: numbered (i + 1) names

theorem assign_put (old : Str) (names : List Str) (i : Nat) (p : Piece) :
    (p.put old (varText (newName i))).assign names (i + 1) = p.assign (old :: names) i := by
    cases p with
    | text s => rfl
    | hole m =>
      simp only [Piece.put]
      by_cases h : m = old
      · subst h
        simp [Piece.assign, nameOf]
      · rw [if_neg h]
        by_cases h' : m ∈ names
        · have hi : (old :: names).idxOf m = names.idxOf m + 1 := List.idxOf_cons_ne _ (Ne.symm h)
          simp only [Piece.assign, List.mem_cons, h, h', or_true, if_true, nameOf, hi]
          rw [show i + 1 + names.idxOf m = i + (names.idxOf m + 1) by omega]
        · simp [Piece.assign, h, h']

theorem renameLoop_render (names : List Str) (i : Nat) (ps : List Piece) (hn : ∀ n ∈ names, Placeholder n)
    (hp : ∀ p ∈ ps, p.Ok) :
    renameLoop i names (render ps) = (render (ps.map (Piece.assign names i)), numbered i names) := by
  induction names generalizing i ps with
  | nil =>
    have : ps.map (Piece.assign [] i) = ps := by
      conv_rhs => rw [← List.map_id ps]
      apply List.map_congr_left
      intro p _
      cases p <;> simp [Piece.assign]
    simp [renameLoop, numbered, this]
  | cons old names ih =>
    simp only [renameLoop, numbered]
    rw [replace_render (hn old (by simp)) hp, ih (i + 1) _ (fun n h => hn n (by simp [h])) (by
      intro p hp'
      obtain ⟨q, hq, rfl⟩ := List.mem_map.1 hp'
      exact put_ok (letters_no_brace (newName_letters i)) (hp q hq)), List.map_map]
    have e : Piece.assign names (i + 1) ∘ Piece.put old (varText (newName i)) = Piece.assign (old :: names) i := by
      funext p
      exact assign_put old names i p
    rw [e]

/-! ## Templates of formulas -/

theorem blank_no_brace {w : Str} (h : Blank w) : ∀ c ∈ w, c ≠ '{' := by
  intro c hc
  rcases h c hc with rfl | rfl | rfl | rfl <;> decide

theorem digits_no_brace {w : Str} (h : ∀ c ∈ w, c.isDigit = true) : ∀ c ∈ w, c ≠ '{' := by
  rintro c hc rfl
  exact absurd (h _ hc) (by decide)

theorem sign_no_brace {o : Option Char} (h : ∀ c, o = some c → IsSign c) : ∀ c ∈ o.toList, c ≠ '{' := by
  rintro c hc
  rw [Option.mem_toList] at hc
  rcases h c hc with rfl | rfl <;> decide

theorem lexeme_no_brace {l : Lexeme} (h : l.Ok) : ∀ c ∈ l.written, c ≠ '{' := by
  intro c hc
  simp only [Lexeme.written, List.mem_append] at hc
  rcases hc with ((hc | hc) | hc) | hc
  · exact sign_no_brace h.sign c hc
  · exact digits_no_brace h.int.2 c hc
  · cases hf : l.frac with
    | none => rw [hf] at hc; simp [fracText] at hc
    | some g =>
      rw [hf] at hc
      simp only [fracText, List.mem_cons] at hc
      rcases hc with rfl | hc
      · decide
      · exact digits_no_brace (h.frac g hf) c hc
  · cases hx : l.exp with
    | none => rw [hx] at hc; simp [expText] at hc
    | some y =>
      obtain ⟨e, s, d⟩ := y
      rw [hx] at hc
      obtain ⟨h1, h2, h3⟩ := h.exp e s d hx
      simp only [expText, List.mem_cons, List.mem_append] at hc
      rcases hc with rfl | hc | hc
      · rcases h1 with rfl | rfl <;> decide
      · exact sign_no_brace h2 c hc
      · exact digits_no_brace h3.2 c hc

theorem ident_no_brace {f : Str} (h : Ident f) : ∀ c ∈ f, c ≠ '{' := by
  obtain ⟨a, s, rfl, h1, h2⟩ := h
  rintro c hc rfl
  simp only [List.mem_cons] at hc
  rcases hc with rfl | hc
  · exact absurd h1 (by decide)
  · rcases h2 _ hc with h | h | h | h
    · exact absurd h (by decide)
    · exact absurd h (by decide)
    · exact absurd h (by decide)
    · exact absurd h (by decide)

/-- A template seen as texts and placeholders. -/
def Template (lv : Level) (t : Form) (s : Str) : Prop :=
  ∃ ps : List Piece, s = render ps ∧ (∀ p ∈ ps, p.Ok) ∧ holes ps = t.vars ∧
    ∀ f : Str → Str, Writes varText lv (t.rename f) (render (ps.map (Piece.fill (fun n => varText (f n)))))

theorem template {lv : Level} {t : Form} {s : Str} (h : Writes braces lv t s)
    (hv : ∀ n ∈ t.vars, Placeholder n) : Template lv t s := by
  induction h with
  | @num w l hw hl hs =>
    refine ⟨[.text (w ++ l.written)], by simp [render, Piece.render], ?_, rfl, ?_⟩
    · simp only [List.mem_singleton, forall_eq]
      intro c hc
      rcases List.mem_append.1 hc with hc | hc
      · exact blank_no_brace hw c hc
      · exact lexeme_no_brace hl c hc
    · intro f
      simpa [render, Piece.fill, Piece.render, Form.rename] using Writes.num hw hl hs
  | @pi w t hw ht =>
    refine ⟨[.text (w ++ t)], by simp [render, Piece.render], ?_, rfl, ?_⟩
    · simp only [List.mem_singleton, forall_eq]
      intro c hc
      rcases List.mem_append.1 hc with hc | hc
      · exact blank_no_brace hw c hc
      · simp only [List.mem_cons, List.not_mem_nil, or_false] at ht
        rcases ht with rfl | rfl | rfl | rfl <;>
          simp only [List.mem_cons, List.not_mem_nil, or_false] at hc <;> rcases hc with rfl | rfl <;> decide
    · intro f
      simpa [render, Piece.fill, Piece.render, Form.rename] using Writes.pi (wr := varText) hw ht
  | @euler w t hw ht =>
    refine ⟨[.text (w ++ t)], by simp [render, Piece.render], ?_, rfl, ?_⟩
    · simp only [List.mem_singleton, forall_eq]
      intro c hc
      rcases List.mem_append.1 hc with hc | hc
      · exact blank_no_brace hw c hc
      · simp only [List.mem_cons, List.not_mem_nil, or_false] at ht
        rcases ht with rfl | rfl <;>
          simp only [List.mem_cons, List.not_mem_nil, or_false] at hc <;> subst hc <;> decide
    · intro f
      simpa [render, Piece.fill, Piece.render, Form.rename] using Writes.euler (wr := varText) hw ht
  | @var w n hw =>
    refine ⟨[.text w, .hole n], by simp [render, Piece.render], ?_, rfl, ?_⟩
    · intro p hp
      simp only [List.mem_cons, List.not_mem_nil, or_false] at hp
      rcases hp with rfl | rfl
      · exact blank_no_brace hw
      · exact hv n (by simp [Form.vars])
    · intro f
      simpa [render, Piece.fill, Piece.render, Form.rename] using Writes.var (wr := varText) (n := f n) hw
  | @call w f w' s w'' x hw hf hsc hw' hx hw'' ih =>
    obtain ⟨ps, rfl, h1, h2, h3⟩ := ih hv
    refine ⟨[.text (w ++ (f ++ (w' ++ ['('])))] ++ ps ++ [.text (w'' ++ [')'])], ?_, ?_, ?_, ?_⟩
    · simp [render, Piece.render]
    · intro p hp
      simp only [List.mem_append, List.mem_singleton] at hp
      rcases hp with (rfl | hp) | rfl
      · intro c hc
        simp only [List.mem_append, List.mem_singleton] at hc
        rcases hc with hc | hc | hc | rfl
        · exact blank_no_brace hw c hc
        · exact ident_no_brace hf c hc
        · exact blank_no_brace hw' c hc
        · decide
      · exact h1 p hp
      · intro c hc
        simp only [List.mem_append, List.mem_singleton] at hc
        rcases hc with hc | rfl
        · exact blank_no_brace hw'' c hc
        · decide
    · simp [holes_append, holes, h2, Form.vars]
    · intro g
      have := Writes.call (wr := varText) hw hf hsc hw' (h3 g) hw''
      simpa [render, Piece.fill, Piece.render, Form.rename] using this
  | @paren w s w' x hw hx hw' ih =>
    obtain ⟨ps, rfl, h1, h2, h3⟩ := ih hv
    refine ⟨[.text (w ++ ['('])] ++ ps ++ [.text (w' ++ [')'])], ?_, ?_, ?_, ?_⟩
    · simp [render, Piece.render]
    · intro p hp
      simp only [List.mem_append, List.mem_singleton] at hp
      rcases hp with (rfl | hp) | rfl
      · intro c hc
        simp only [List.mem_append, List.mem_singleton] at hc
        rcases hc with hc | rfl
        · exact blank_no_brace hw c hc
        · decide
      · exact h1 p hp
      · intro c hc
        simp only [List.mem_append, List.mem_singleton] at hc
        rcases hc with hc | rfl
        · exact blank_no_brace hw' c hc
        · decide
    · simp [holes_append, holes, h2]
    · intro g
      have := Writes.paren (wr := varText) hw (h3 g) hw'
      simpa [render, Piece.fill, Piece.render, Form.rename] using this
  | @unsigned s x hx ih =>
    obtain ⟨ps, e, h1, h2, h3⟩ := ih hv
    exact ⟨ps, e, h1, h2, fun f => .unsigned (h3 f)⟩
  | @minus w s x hw hx ih =>
    obtain ⟨ps, rfl, h1, h2, h3⟩ := ih hv
    refine ⟨[.text (w ++ ['-'])] ++ ps, ?_, ?_, ?_, ?_⟩
    · simp [render, Piece.render]
    · intro p hp
      simp only [List.mem_append, List.mem_singleton] at hp
      rcases hp with rfl | hp
      · intro c hc
        simp only [List.mem_append, List.mem_singleton] at hc
        rcases hc with hc | rfl
        · exact blank_no_brace hw c hc
        · decide
      · exact h1 p hp
    · simp [holes, h2, Form.vars]
    · intro g
      have := Writes.minus (wr := varText) hw (h3 g)
      simpa [render, Piece.fill, Piece.render, Form.rename] using this
  | @plus w s x hw hx ih =>
    obtain ⟨ps, rfl, h1, h2, h3⟩ := ih hv
    refine ⟨[.text (w ++ ['+'])] ++ ps, ?_, ?_, ?_, ?_⟩
    · simp [render, Piece.render]
    · intro p hp
      simp only [List.mem_append, List.mem_singleton] at hp
      rcases hp with rfl | hp
      · intro c hc
        simp only [List.mem_append, List.mem_singleton] at hc
        rcases hc with hc | rfl
        · exact blank_no_brace hw c hc
        · decide
      · exact h1 p hp
    · simp [holes, h2]
    · intro g
      have := Writes.plus (wr := varText) hw (h3 g)
      simpa [render, Piece.fill, Piece.render, Form.rename] using this
  | @minusSigned w w' l hw hw' hl =>
    refine ⟨[.text (w ++ '-' :: (w' ++ l.written))], by simp [render, Piece.render], ?_, rfl, ?_⟩
    · simp only [List.mem_singleton, forall_eq]
      intro c hc
      simp only [List.mem_append, List.mem_cons] at hc
      rcases hc with hc | rfl | hc | hc
      · exact blank_no_brace hw c hc
      · decide
      · exact blank_no_brace hw' c hc
      · exact lexeme_no_brace hl c hc
    · intro f
      simpa [render, Piece.fill, Piece.render, Form.rename] using Writes.minusSigned (wr := varText) hw hw' hl
  | @plusSigned w w' l hw hw' hl =>
    refine ⟨[.text (w ++ '+' :: (w' ++ l.written))], by simp [render, Piece.render], ?_, rfl, ?_⟩
    · simp only [List.mem_singleton, forall_eq]
      intro c hc
      simp only [List.mem_append, List.mem_cons] at hc
      rcases hc with hc | rfl | hc | hc
      · exact blank_no_brace hw c hc
      · decide
      · exact blank_no_brace hw' c hc
      · exact lexeme_no_brace hl c hc
    · intro f
      simpa [render, Piece.fill, Piece.render, Form.rename] using Writes.plusSigned (wr := varText) hw hw' hl
  | @base s x hx ih =>
    obtain ⟨ps, e, h1, h2, h3⟩ := ih hv
    exact ⟨ps, e, h1, h2, fun f => .base (h3 f)⟩
  | @factor s x hx ih =>
    obtain ⟨ps, e, h1, h2, h3⟩ := ih hv
    exact ⟨ps, e, h1, h2, fun f => .factor (h3 f)⟩
  | @term s x hx ih =>
    obtain ⟨ps, e, h1, h2, h3⟩ := ih hv
    exact ⟨ps, e, h1, h2, fun f => .term (h3 f)⟩
  | @power s w s' x y hx hw hy ihx ihy =>
    obtain ⟨ps, rfl, h1, h2, h3⟩ := ihx fun n hn => hv n (by simp [Form.vars, hn])
    obtain ⟨qs, rfl, k1, k2, k3⟩ := ihy fun n hn => hv n (by simp [Form.vars, hn])
    refine ⟨ps ++ [.text (w ++ ['^'])] ++ qs, ?_, ?_, ?_, ?_⟩
    · simp [render, Piece.render]
    · intro p hp
      simp only [List.mem_append, List.mem_singleton] at hp
      rcases hp with (hp | rfl) | hp
      · exact h1 p hp
      · intro c hc
        simp only [List.mem_append, List.mem_singleton] at hc
        rcases hc with hc | rfl
        · exact blank_no_brace hw c hc
        · decide
      · exact k1 p hp
    · simp [holes_append, holes, h2, k2, Form.vars]
    · intro g
      have := Writes.power (wr := varText) (h3 g) hw (k3 g)
      simpa [render, Piece.fill, Piece.render, Form.rename] using this
  | @product s w s' x y o hx hw ho hy ihx ihy =>
    obtain ⟨ps, rfl, h1, h2, h3⟩ := ihx fun n hn => hv n (by simp [Form.vars, hn])
    obtain ⟨qs, rfl, k1, k2, k3⟩ := ihy fun n hn => hv n (by simp [Form.vars, hn])
    refine ⟨ps ++ [.text (w ++ [o])] ++ qs, ?_, ?_, ?_, ?_⟩
    · simp [render, Piece.render]
    · intro p hp
      simp only [List.mem_append, List.mem_singleton] at hp
      rcases hp with (hp | rfl) | hp
      · exact h1 p hp
      · intro c hc
        simp only [List.mem_append, List.mem_singleton] at hc
        rcases hc with hc | rfl
        · exact blank_no_brace hw c hc
        · rcases ho with rfl | rfl <;> decide
      · exact k1 p hp
    · simp [holes_append, holes, h2, k2, Form.vars]
    · intro g
      have := Writes.product (wr := varText) (h3 g) hw ho (k3 g)
      simpa [render, Piece.fill, Piece.render, Form.rename] using this
  | @sum s w s' x y o hx hw ho hy ihx ihy =>
    obtain ⟨ps, rfl, h1, h2, h3⟩ := ihx fun n hn => hv n (by simp [Form.vars, hn])
    obtain ⟨qs, rfl, k1, k2, k3⟩ := ihy fun n hn => hv n (by simp [Form.vars, hn])
    refine ⟨ps ++ [.text (w ++ [o])] ++ qs, ?_, ?_, ?_, ?_⟩
    · simp [render, Piece.render]
    · intro p hp
      simp only [List.mem_append, List.mem_singleton] at hp
      rcases hp with (hp | rfl) | hp
      · exact h1 p hp
      · intro c hc
        simp only [List.mem_append, List.mem_singleton] at hc
        rcases hc with hc | rfl
        · exact blank_no_brace hw c hc
        · rcases ho with rfl | rfl <;> decide
      · exact k1 p hp
    · simp [holes_append, holes, h2, k2, Form.vars]
    · intro g
      have := Writes.sum (wr := varText) (h3 g) hw ho (k3 g)
      simpa [render, Piece.fill, Piece.render, Form.rename] using this

/-! ## Renamed formulas -/

theorem rename_vars (f : Str → Str) (t : Form) : (t.rename f).vars = t.vars.map f := by
  induction t with
  | bin o a b iha ihb => simp [Form.rename, Form.vars, iha, ihb]
  | call g x ih => simpa [Form.rename, Form.vars] using ih
  | neg x ih => simpa [Form.rename, Form.vars] using ih
  | _ => simp [Form.rename, Form.vars]

theorem rename_array (f : Str → Str) (t : Form) : (t.rename f).array = t.array.map f := by
  induction t with
  | call g x ih =>
    simp only [Form.rename, Form.array]
    split
    · exact ih
    · rfl
  | _ => simp [Form.rename, Form.array]

theorem rename_replaced (f : Str → Str) (t : Form) : (t.rename f).replaced = t.replaced.map f := by
  induction t with
  | call g x ih =>
    simp only [Form.rename, Form.replaced, rename_array, ih]
    split
    · cases x.array <;> simp
    · rfl
  | neg x ih => simpa [Form.rename, Form.replaced] using ih
  | bin o a b iha ihb => simp [Form.rename, Form.replaced, iha, ihb]
  | _ => simp [Form.rename, Form.replaced]

theorem rename_known (f : Str → Str) (t : Form) (h : t.Known) : (t.rename f).Known := by
  induction t with
  | call g x ih => exact ⟨h.1, ih h.2⟩
  | neg x ih => exact ih h
  | bin o a b iha ihb => exact ⟨h.1, iha h.2.1, ihb h.2.2⟩
  | num l => exact h
  | _ => trivial

theorem replaced_mem_vars (t : Form) {n : Str} (h : n ∈ t.replaced) : n ∈ t.vars := by
  induction t with
  | call g x ih =>
    simp only [Form.replaced] at h
    split at h
    · simp only [List.mem_append, Option.mem_toList] at h
      rcases h with h | h
      · exact array_mem_vars x h
      · exact ih h
    · exact ih h
  | neg x ih => exact ih h
  | bin o a b iha ihb =>
    simp only [Form.replaced, List.mem_append] at h
    simp only [Form.vars, List.mem_append]
    exact h.imp iha ihb
  | _ => simp [Form.replaced] at h

theorem rename_separate {f : Str → Str} (t : Form)
    (hf : ∀ m ∈ t.vars, ∀ n ∈ t.vars, f m = f n → m = n) (h : t.Separate) : (t.rename f).Separate := by
  induction t with
  | call g x ih => exact ih hf h
  | neg x ih => exact ih hf h
  | bin o a b iha ihb =>
    obtain ⟨h1, h2, h3, h4⟩ := h
    have ha : ∀ m ∈ a.vars, m ∈ (Form.bin o a b).vars := fun m hm => by simp [Form.vars, hm]
    have hb : ∀ m ∈ b.vars, m ∈ (Form.bin o a b).vars := fun m hm => by simp [Form.vars, hm]
    refine ⟨iha (fun m hm n hn => hf m (ha m hm) n (ha n hn)) h1,
      ihb (fun m hm n hn => hf m (hb m hm) n (hb n hn)) h2, ?_, ?_⟩
    · intro n hn hn'
      rw [rename_replaced] at hn
      rw [rename_vars] at hn'
      obtain ⟨p, hp, rfl⟩ := List.mem_map.1 hn
      obtain ⟨q, hq, e⟩ := List.mem_map.1 hn'
      have := hf q (ha q hq) p (hb p (replaced_mem_vars b hp)) e
      subst this
      exact h3 q hp hq
    · intro n hn hn'
      rw [rename_replaced] at hn
      rw [rename_vars] at hn'
      obtain ⟨p, hp, rfl⟩ := List.mem_map.1 hn
      obtain ⟨q, hq, e⟩ := List.mem_map.1 hn'
      have := hf q (hb q hq) p (ha p (replaced_mem_vars a hp)) e
      subst this
      exact h4 q hp hq
  | _ => trivial

theorem rename_denote {V : Type} (A : Alg V) (σ : Str → Option V) (f : Str → Str) (t : Form) :
    denote A σ (t.rename f) = denote A (fun n => σ (f n)) t := by
  induction t with
  | call g x ih => simp only [Form.rename, denote, ih]
  | neg x ih => simp only [Form.rename, denote, ih]
  | bin o a b iha ihb => simp only [Form.rename, denote, iha, ihb]
  | _ => rfl

end SC.Expression
