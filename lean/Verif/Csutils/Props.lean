import Verif.Csutils.Model
import Mathlib.Tactic.Ring
import Mathlib.Tactic.Linarith
/-! # C88: cross sections for arrays of elements and energies -/
namespace SC.Csutils

/-- An index within a shape. -/
def Within : List Nat → List Nat → Prop
  | [], [] => True
  | n :: ns, i :: is => i < n ∧ Within ns is
  | _, _ => False

/-- An array with as many values as its shape says. -/
def Arr.Ok {α : Type} (a : Arr α) : Prop := a.data.length = a.shape.prod

def In.Ok {α : Type} : In α → Prop
  | .num _ => True
  | .arr a => a.Ok

/-- The value of an input at an index; a number at the empty index. -/
def In.at {α : Type} (x : In α) (i : List Nat) : Option α :=
  match x with
  | .num x => if i = [] then some x else none
  | .arr a => a.data[ravel a.shape i]?

/-- The functions of xraylib_np give the same as those of xraylib (or raise). -/
def NpAgrees {Z E : Type} (np : Option (List Z → List E → Option (List (List Rat)))) (method : Z → E → Option Rat) : Prop :=
  ∀ f, np = some f → ∀ zs es t, f zs es = some t → t = table method zs es

theorem evalTable_eq {Z E : Type} {np : Option (List Z → List E → Option (List (List Rat)))} {method : Z → E → Option Rat}
    (h : NpAgrees np method) (z : In Z) (e : In E) : evalTable np method z e = table method z.flat e.flat := by
  unfold evalTable
  cases np with
  | none => rfl
  | some f =>
    simp only
    split
    · rename_i t ht
      exact h f rfl _ _ t ht
    · rfl

theorem ravel_lt (s i : List Nat) (h : Within s i) : ravel s i < s.prod := by
  induction s generalizing i with
  | nil => cases i <;> simp [ravel]
  | cons n ns ih =>
    cases i with
    | nil => exact h.elim
    | cons i is =>
      have h2 := ih is h.2
      simp only [ravel, List.prod_cons]
      have h1 : i + 1 ≤ n := h.1
      calc i * ns.prod + ravel ns is < i * ns.prod + ns.prod := by omega
        _ = (i + 1) * ns.prod := by ring
        _ ≤ n * ns.prod := Nat.mul_le_mul_right _ h1

theorem ravel_append (s t i j : List Nat) (h : Within s i) : ravel (s ++ t) (i ++ j) = ravel s i * t.prod + ravel t j := by
  induction s generalizing i with
  | nil =>
    cases i with
    | nil => simp [ravel]
    | cons a b => exact h.elim
  | cons n ns ih =>
    cases i with
    | nil => exact h.elim
    | cons a as =>
      simp only [List.cons_append, ravel, List.prod_append]
      rw [ih as h.2]
      ring

theorem flatten_get {α : Type} (t : List (List α)) (m : Nat) (h : ∀ r ∈ t, r.length = m) (i j : Nat) (hj : j < m) :
    t.flatten[i * m + j]? = t[i]?.bind fun r => r[j]? := by
  induction t generalizing i with
  | nil => simp
  | cons r rs ih =>
    have hr := h r List.mem_cons_self
    cases i with
    | zero =>
      rw [List.flatten_cons, List.getElem?_append_left (by omega)]
      simp
    | succ i =>
      rw [List.flatten_cons, List.getElem?_append_right (by rw [hr]; nlinarith)]
      have e : (i + 1) * m + j - r.length = i * m + j := by
        rw [hr, Nat.add_mul]
        omega
      rw [e, ih (fun r hr => h r (List.mem_cons_of_mem _ hr))]
      simp

theorem flat_length {α : Type} (x : In α) (h : x.Ok) : x.flat.length = x.dims.prod := by
  cases x with
  | num => rfl
  | arr a => exact h

theorem flat_at {α : Type} (x : In α) (i : List Nat) (h : Within x.dims i) : x.flat[ravel x.dims i]? = x.at i := by
  cases x with
  | num x =>
    cases i with
    | nil => simp [In.flat, In.dims, In.at, ravel]
    | cons a b => exact h.elim
  | arr a => rfl

/-- **C88.** The result for arrays has the dimensions of the atomic numbers followed by those of the energies;
for two numbers it is a number. -/
theorem eval_dims {Z E : Type} (np : Option (List Z → List E → Option (List (List Rat)))) (method : Z → E → Option Rat)
    (hn : NpAgrees np method) (z : In Z) (e : In E) (hz : z.Ok) (he : e.Ok) (h : z.isarray = true ∨ e.isarray = true) :
    ∃ a, eval np method z e = .arr a ∧ a.shape = z.dims ++ e.dims ∧ a.Ok := by
  have key : ({ shape := z.dims ++ e.dims, data := (evalTable np method z e).flatten } : Arr Rat).Ok := by
    unfold Arr.Ok
    simp only
    rw [evalTable_eq hn, List.prod_append, ← flat_length z hz, ← flat_length e he, List.length_flatten]
    simp [table, Function.comp_def]
  cases z <;> cases e <;> first | exact ⟨_, rfl, rfl, key⟩ | simp [In.isarray] at h

/-- **C88.** Every value of the result is the cross section of the element at the first part of the index, at the
energy of the second part; zero where there is none. -/
theorem eval_value {Z E : Type} (np : Option (List Z → List E → Option (List (List Rat)))) (method : Z → E → Option Rat)
    (hn : NpAgrees np method) (z : In Z) (e : In E) (hz : z.Ok) (he : e.Ok) (a : Arr Rat) (h : eval np method z e = .arr a)
    (i j : List Nat) (hi : Within z.dims i) (hj : Within e.dims j) :
    ∃ x y, z.at i = some x ∧ e.at j = some y ∧ a.data[ravel a.shape (i ++ j)]? = some ((method x y).getD 0) := by
  have hza : z.flat[ravel z.dims i]? = z.at i := flat_at z i hi
  have hea : e.flat[ravel e.dims j]? = e.at j := flat_at e j hj
  have lz : ravel z.dims i < z.flat.length := by rw [flat_length z hz]; exact ravel_lt _ _ hi
  have le : ravel e.dims j < e.flat.length := by rw [flat_length e he]; exact ravel_lt _ _ hj
  have ha : a = { shape := z.dims ++ e.dims, data := (evalTable np method z e).flatten } := by
    cases z <;> cases e <;> simp only [eval, Out.arr.injEq, reduceCtorEq] at h <;> exact h.symm
  subst ha
  refine ⟨z.flat[ravel z.dims i], e.flat[ravel e.dims j], ?_, ?_, ?_⟩
  · rw [← hza, List.getElem?_eq_getElem lz]
  · rw [← hea, List.getElem?_eq_getElem le]
  · simp only
    rw [ravel_append _ _ _ _ hi, evalTable_eq hn, ← flat_length e he,
      flatten_get _ e.flat.length (by intro r hr; simp only [table, List.mem_map] at hr; obtain ⟨u, _, rfl⟩ := hr; simp) _ _ le]
    simp only [table, List.getElem?_map, List.getElem?_eq_getElem lz, Option.map_some, Option.bind_some, List.getElem?_eq_getElem le]

/-- **C88.** Two numbers. -/
theorem eval_num {Z E : Type} (np : Option (List Z → List E → Option (List (List Rat)))) (method : Z → E → Option Rat) (z : Z) (e : E) :
    eval np method (.num z) (.num e) = .num ((method z e).getD 0) := rfl

/-- **C88.** Numbers and arrays without dimensions give the same value. -/
theorem eval_zero_dim {Z E : Type} (method : Z → E → Option Rat) (z : Z) (e : E) :
    eval none method (.num z) (.arr ⟨[], [e]⟩) = .arr ⟨[], [(method z e).getD 0]⟩ := rfl

/-- Three elements, energies of shape (2, 2). -/
example : eval none (fun (z e : Nat) => if z = 2 then none else some (10 * z + e)) (.arr ⟨[3], [1, 2, 3]⟩) (.arr ⟨[2, 2], [5, 6, 7, 8]⟩) =
    .arr ⟨[3, 2, 2], [15, 16, 17, 18, 0, 0, 0, 0, 35, 36, 37, 38]⟩ := by decide +kernel

/-! ## Simulated cross sections -/

/-- **C88.** Where the tabulated partial cross sections are at most the total, the partial ones are replaced. -/
theorem replace_value (interp : List Rat → List Rat → List Rat → List Rat) (cs db sim energies : List Rat)
    (h1 : db.length = cs.length) (h2 : sim.length = cs.length) (h : ∀ i (hi : i < cs.length), db[i] ≤ cs[i]) :
    ∃ r, replacePartial interp cs db sim energies = some r ∧ r.length = cs.length ∧
      ∀ i (hi : i < r.length) (hc : i < cs.length), r[i] = cs[i] - db[i] + sim[i] := by
  have hneg : ((List.range (List.zipWith (· - ·) cs db).length).filter fun i => decide ((List.zipWith (· - ·) cs db).getD i 0 < 0)) = [] := by
    rw [List.filter_eq_nil_iff]
    intro i hi
    have hi' : i < (List.zipWith (· - ·) cs db).length := List.mem_range.1 hi
    have hc : i < cs.length := by rw [List.length_zipWith] at hi'; omega
    simp only [decide_eq_true_eq, not_lt]
    rw [List.getD_eq_getElem?_getD, List.getElem?_eq_getElem hi', Option.getD_some, List.getElem_zipWith]
    have := h i hc
    linarith
  refine ⟨List.zipWith (· + ·) (List.zipWith (· - ·) cs db) sim, ?_, ?_, ?_⟩
  · unfold replacePartial
    simp only
    rw [if_pos hneg]
  · simp [List.length_zipWith, h1, h2]
  · intro i hi hc
    simp only [List.getElem_zipWith]

/-- **C88, deviation.** As soon as one of them is larger than the total, the correction raises: the indices of
`np.argwhere` are pairs, which are used as if they were numbers. -/
theorem replace_fails (interp : List Rat → List Rat → List Rat → List Rat) (cs db sim energies : List Rat)
    (h1 : db.length = cs.length) (h2 : energies.length = cs.length) (k : Nat) (hk : k < cs.length) (h : cs[k] < db[k]) :
    replacePartial interp cs db sim energies = none := by
  have hl : (List.zipWith (· - ·) cs db).length = cs.length := by rw [List.length_zipWith, h1, Nat.min_self]
  have hd : (List.zipWith (· - ·) cs db).getD k 0 < 0 := by
    rw [List.getD_eq_getElem?_getD, List.getElem?_eq_getElem (by rw [hl]; exact hk), Option.getD_some, List.getElem_zipWith]
    linarith
  unfold replacePartial
  simp only
  generalize List.zipWith (· - ·) cs db = d at *
  have hneg : ((List.range d.length).filter fun i => decide (d.getD i 0 < 0)) ≠ [] := by
    intro e
    rw [List.filter_eq_nil_iff] at e
    exact e k (List.mem_range.2 (by omega)) (by simpa using hd)
  rw [if_neg hneg]
  have hpos : ∀ i ∈ ((List.range d.length).filter fun i => decide (0 ≤ d.getD i 0)), i ≠ k := by
    intro i hi
    have := (List.mem_filter.1 hi).2
    simp only [decide_eq_true_eq] at this
    rintro rfl
    linarith
  have hnd : ((List.range d.length).filter fun i => decide (0 ≤ d.getD i 0)).Nodup := List.nodup_range.filter _
  have hlt : ∀ i ∈ ((List.range d.length).filter fun i => decide (0 ≤ d.getD i 0)), i < d.length :=
    fun i hi => List.mem_range.1 (List.mem_filter.1 hi).1
  generalize ((List.range d.length).filter fun i => decide (0 ≤ d.getD i 0)) = pos at *
  match pos, hpos, hnd, hlt with
  | [], _, _, _ => simp [takeCols]
  | [0], hp, _, hl0 =>
    have hk0 : k ≠ 0 := fun e => hp 0 List.mem_cons_self e.symm
    cases energies with
    | nil => simp at h2; omega
    | cons e es =>
      simp only [takeCols, List.flatMap_cons, List.flatMap_nil, List.append_nil, List.mapM_cons, List.mapM_nil, List.getElem?_cons_zero]
      simp
      omega
  | (c + 1) :: r, _, _, _ =>
    have : takeCols [d] ((c + 1) :: r) = none := by
      simp [takeCols, List.mapM_cons]
    rw [this]
    cases takeCols energies ((c + 1) :: r) <;> rfl
  | 0 :: 0 :: r, _, hn, _ => simp at hn
  | 0 :: (c + 1) :: r, _, _, _ =>
    have : takeCols [d] (0 :: (c + 1) :: r) = none := by
      simp [takeCols, List.mapM_cons]
    rw [this]
    cases takeCols energies (0 :: (c + 1) :: r) <;> rfl

/-- One of three energies has a partial cross section larger than the total. -/
example : replacePartial (fun _ _ c => c) [5, 1, 4] [3, 2, 3] [4, 4, 4] [7, 8, 9] = none ∧
    replacePartial (fun _ _ c => c) [5, 3, 4] [3, 2, 3] [4, 4, 4] [7, 8, 9] = some [6, 5, 5] := by decide +kernel

end SC.Csutils
