import Verif.Hashing.Inj
/-! # C38: content hashing -/
namespace SC.Hashing
open SC.Common

variable {md5 : Bytes → Bytes}

/-- A value can be hashed iff it has at most 100 nested levels. -/
theorem calchash_isSome (x : Val) : (calchash md5 0 x).isSome ↔ height x ≤ 100 := by
  rw [calchash_eq 0 (by omega)]
  split
  · simp; omega
  · simp; omega

/-- **C38.**  Equal values have equal hashes (or both are nested too deeply), whatever the hash
function: the order of set elements and of mapping items, the type of integers and the class of
non-empty containers do not matter.  The keys of a mapping must have different hashes. -/
theorem calchash_same_partial {x y : Val} (h : Same x y) (hk : WellKeyed md5 x) :
    calchash md5 0 x = calchash md5 0 y := by
  rw [calchash_eq 0 (by omega), calchash_eq 0 (by omega), same_dig h hk, same_height h]

/-- **C38.**  Hashes of sets do not depend on the order of iteration. -/
theorem calchash_set_order (d : Nat) (hd : d ≤ 100) (c : Bytes) {xs ys : List Val}
    (h : xs.Perm ys) : calchash md5 d (.set c xs) = calchash md5 d (.set c ys) := by
  have e : height (.set c xs) = height (.set c ys) := by simp only [height, heights_perm h]
  rw [calchash_eq d hd, calchash_eq d hd, e]
  by_cases hx : xs = []
  · subst hx; rw [List.nil_perm.1 h]
  · have hy : ys ≠ [] := by rintro rfl; exact hx (List.perm_nil.1 h)
    rw [dig_set _ _ hx, dig_set _ _ hy, sort_perm_eq (h.map _)]

/-- **C38.**  Hashes of unordered mappings do not depend on the order of insertion. -/
theorem calchash_dict_order (d : Nat) (hd : d ≤ 100) (c : Bytes) (items items' : List (Val × Val))
    (h : items.Perm items')
    (hk : (items.map fun p => calchash md5 0 p.1).Nodup) :
    calchash md5 d (.dict false c (items.map (·.1)) (items.map (·.2))) =
      calchash md5 d (.dict false c (items'.map (·.1)) (items'.map (·.2))) := by
  have p1 := h.map (fun p : Val × Val => p.1)
  have p2 := h.map (fun p : Val × Val => p.2)
  have hE : height (.dict false c (items.map (·.1)) (items.map (·.2))) =
      height (.dict false c (items'.map (·.1)) (items'.map (·.2))) := by
    have : (items.map (·.1)).isEmpty = (items'.map (·.1)).isEmpty := by
      cases items with
      | nil => rw [List.nil_perm.1 h]
      | cons a l =>
        cases items' with
        | nil => simp at h
        | cons b l' => rfl
    simp only [height, heights_perm p1, heights_perm p2, this]
  rw [calchash_eq d hd, calchash_eq d hd, ← hE]
  by_cases hh : d + height (.dict false c (items.map (·.1)) (items.map (·.2))) ≤ 100
  · rw [if_pos hh, if_pos hh]
    by_cases hx : items = []
    · subst hx; rw [List.nil_perm.1 h]
    · have hy : items' ≠ [] := by rintro rfl; exact hx (List.perm_nil.1 h)
      have hall : ∀ p ∈ items, height p.1 ≤ 100 := by
        intro p hp
        have h1 := le_heights (xs := items.map (·.1)) (x := p.1) (List.mem_map.2 ⟨p, hp, rfl⟩)
        have h2 : (items.map (·.1)).isEmpty = false := by simpa [List.isEmpty_iff] using hx
        simp only [height, h2, Bool.false_eq_true, if_false] at hh
        omega
      have e : (items.map fun p => calchash md5 0 p.1) =
          (items.map fun p => dig md5 p.1).map some := by
        rw [List.map_map]
        refine List.map_congr_left fun p hp => ?_
        rw [calchash_eq 0 (by omega), if_pos (by have := hall p hp; omega)]; rfl
      rw [e] at hk
      have hnd := List.Nodup.of_map _ hk
      rw [dig_dict _ _ _ (by simpa using hx), dig_dict _ _ _ (by simpa using hy)]
      rw [sort2_perm_eq (ks' := (items'.map (·.1)).map (dig md5))
        (vs' := (items'.map (·.2)).map (dig md5)) (by simp) (by rw [List.map_map]; exact hnd)]
      have hz : ∀ l : List (Val × Val), ((l.map (·.1)).map (dig md5)).zip ((l.map (·.2)).map (dig md5)) =
          l.map (fun p => (dig md5 p.1, dig md5 p.2)) := by
        intro l; rw [List.map_map, List.map_map, List.zip_map']; rfl
      rw [hz, hz]
      exact h.map _
  · rw [if_neg hh, if_neg hh]

/-- **C38.**  Within the depth limit and without hash collisions, two values have equal hashes iff
they have the same canonical form: nothing else is confused. -/
theorem calchash_eq_iff (hd : Digest md5) {x y : Val} (hx : x.Ok) (hy : y.Ok)
    (fx : height x ≤ 100) (fy : height y ≤ 100) (hn : NoCollision md5 (canon md5 x) (canon md5 y)) :
    calchash md5 0 x = calchash md5 0 y ↔ canon md5 x = canon md5 y := by
  rw [calchash_eq 0 (by omega), calchash_eq 0 (by omega), if_pos (by omega), if_pos (by omega),
    Option.some.injEq]
  constructor
  · exact digest_inj hd _ _ (canon_wf hx) (canon_wf hy) hn
  · intro h; rw [dig, dig, h]

/-- **C38.**  Hashes of lists depend on the order: without collisions, lists with equal hashes have
pairwise equal element hashes, in the same order. -/
theorem calchash_list_order (hd : Digest md5) {c c' : Bytes} {xs ys : List Val}
    (hx : Val.OkAll xs) (hy : Val.OkAll ys) (fx : height (.seq c xs) ≤ 100)
    (fy : height (.seq c' ys) ≤ 100) (nx : xs ≠ []) (ny : ys ≠ [])
    (hn : NoCollision md5 (canon md5 (.seq c xs)) (canon md5 (.seq c' ys)))
    (h : calchash md5 0 (.seq c xs) = calchash md5 0 (.seq c' ys)) :
    xs.map (calchash md5 0) = ys.map (calchash md5 0) := by
  rw [calchash_eq_iff hd (x := .seq c xs) (y := .seq c' ys) hx hy fx fy hn] at h
  have e1 : xs.isEmpty = false := by simpa [List.isEmpty_iff] using nx
  have e2 : ys.isEmpty = false := by simpa [List.isEmpty_iff] using ny
  simp only [canon, e1, e2, Bool.false_eq_true, if_false, Canon.node.injEq] at h
  have h := congrArg (List.map (Canon.digest md5)) h
  rw [canons_digest, canons_digest] at h
  have key : ∀ (c : Bytes) (zs : List Val), height (.seq c zs) ≤ 100 →
      zs.map (calchash md5 0) = (zs.map (dig md5)).map some := by
    intro c zs hz
    rw [List.map_map]
    refine List.map_congr_left fun z hm => ?_
    have := le_heights hm
    simp only [height] at hz
    rw [calchash_eq 0 (by omega), if_pos (by omega)]; rfl
  rw [key c xs fx, key c' ys fy, h]

/-- One hash is returned as it is; several are hashed as strings; none raises. -/
theorem mergehash_spec (hs : List Bytes) : mergehash md5 hs =
    match hs with
    | [] => none
    | [h] => some h
    | hs => some (md5 (hs.map fun h => md5 (className "string".toList ++ h)).flatten) := by
  match hs with
  | [] => rfl
  | [h] => rfl
  | a :: b :: l =>
    have hh : ∀ l : List Bytes, height.heights (l.map Val.str) ≤ 1 := by
      intro l
      induction l with
      | nil => simp [height.heights]
      | cons a l ih => simp only [List.map_cons, height.heights, height]; omega
    simp only [mergehash, List.length_cons]
    rw [if_pos (by omega), calchash_eq 0 (by omega), if_pos (by
      have := hh (a :: b :: l); simp only [height]; omega), dig_seq _ _ (by simp), List.map_map]
    rfl

/-- **C38.**  Merging hashes: equal results of at least two hashes mean the same hashes in the same
order, unless there is a collision. -/
theorem mergehash_inj (hd : Digest md5) (hs hs' : List Bytes) (h2 : 2 ≤ hs.length)
    (h2' : 2 ≤ hs'.length)
    (hn : NoCollision md5 (canon md5 (.seq "tuple".toList (hs.map .str)))
      (canon md5 (.seq "tuple".toList (hs'.map .str))))
    (h : mergehash md5 hs = mergehash md5 hs') : hs = hs' := by
  have hh : ∀ l : List Bytes, height.heights (l.map Val.str) ≤ 1 := by
    intro l
    induction l with
    | nil => simp [height.heights]
    | cons a l ih => simp only [List.map_cons, height.heights, height]; omega
  have ho : ∀ l : List Bytes, Val.OkAll (l.map Val.str) := by
    intro l
    induction l with
    | nil => trivial
    | cons a l ih => exact ⟨trivial, ih⟩
  simp only [mergehash] at h
  rw [if_pos (by omega), if_pos (by omega), calchash_eq_iff hd (x := .seq _ (hs.map .str)) (y := .seq _ (hs'.map .str)) (ho hs) (ho hs')
    (by have := hh hs; simp only [height]; omega) (by have := hh hs'; simp only [height]; omega) hn] at h
  have e1 : (hs.map Val.str).isEmpty = false := by
    cases hs with
    | nil => simp at h2
    | cons a l => rfl
  have e2 : (hs'.map Val.str).isEmpty = false := by
    cases hs' with
    | nil => simp at h2'
    | cons a l => rfl
  simp only [canon, e1, e2, Bool.false_eq_true, if_false, Canon.node.injEq] at h
  rw [canons_eq_map, canons_eq_map, List.map_map, List.map_map] at h
  refine List.map_injective_iff.2 ?_ h
  intro a b hab
  simp only [Function.comp, canon, Canon.leaf.injEq] at hab
  exact List.append_cancel_left hab

/-! ## deviations -/

/-- **C38 (deviation).**  A mapping with one item and the list of its key and value always have the
same hash, inside any value ... -/
theorem dict_list_collide (d : Nat) (hd : d ≤ 100) (o : Bool) (c c' : Bytes) (k v : Val) :
    calchash md5 d (.dict o c [k] [v]) = calchash md5 d (.seq c' [k, v]) := by
  have e : height (.dict o c [k] [v]) = height (.seq c' [k, v]) := by
    simp [height, height.heights]
  rw [calchash_eq d hd, calchash_eq d hd, e, dig_seq _ _ (by simp)]
  cases o
  · rw [dig_dict _ _ _ (by simp)]; simp [sort2, stableSort, orderedInsert]
  · rw [dig_ordered _ _ _ (by simp)]; simp

/-- ... so a set with one element and the list with that element, ... -/
theorem set_list_collide (d : Nat) (hd : d ≤ 100) (c c' : Bytes) (x : Val) :
    calchash md5 d (.set c [x]) = calchash md5 d (.seq c' [x]) := by
  have e : height (.set c [x]) = height (.seq c' [x]) := by simp only [height]
  rw [calchash_eq d hd, calchash_eq d hd, e, dig_seq _ _ (by simp), dig_set _ _ (by simp)]
  simp [stableSort, orderedInsert]

/-- ... an object and the list with its state, ... -/
theorem obj_list_collide (d : Nat) (hd : d ≤ 100) (c : Bytes) (x : Val) :
    calchash md5 d (.obj x) = calchash md5 d (.seq c [x]) := by
  have e : height (.obj x) = height (.seq c [x]) := by
    simp [height, height.heights]
  rw [calchash_eq d hd, calchash_eq d hd, e, dig_seq _ _ (by simp), dig_obj]
  simp

/-- ... and a quantity and the list of its magnitude and unit name. -/
theorem qty_list_collide (d : Nat) (hd : d ≤ 100) (c : Bytes) (m : Val) (u : Bytes) :
    calchash md5 d (.qty m u) = calchash md5 d (.seq c [m, .str u]) := by
  have e : height (.qty m u) = height (.seq c [m, .str u]) := by
    have := height_pos m
    simp [height, height.heights, this]
  rw [calchash_eq d hd, calchash_eq d hd, e, dig_seq _ _ (by simp), dig_qty]
  simp [dig, canon, digest_leaf]

/-- **C38 (deviation).**  The documented `1 == 1+0j` is not achieved: the hashes agree only when
MD5 maps two different texts to the same digest. -/
theorem complex_differs (t : Bytes) :
    calchash md5 0 (.num (.cplx 1 0 "(1+0j)".toList)) = calchash md5 0 (.num (.real 1 t)) ↔
      md5 (className "number".toList ++ "(1+0j)".toList) = md5 (className "number".toList ++ "1".toList) := by
  have h : numText (.real 1 t) = "1".toList := by
    simp only [numText, show (1 : Rat).den = 1 from rfl, if_true, show (1 : Rat).num = 1 from rfl]
    decide
  simp only [calchash, h, show (0 : Nat) ≠ 100 by decide, if_false, Option.some.injEq]
  simp only [numText]

theorem complex_texts_differ : className "number".toList ++ "(1+0j)".toList ≠
    className "number".toList ++ "1".toList := by decide

/-- **C38 (deviation).**  Equal empty sets of different classes hash differently unless MD5 collides
on the two class names (which are different). -/
theorem empty_set_differs :
    calchash md5 0 (.set "set".toList []) = calchash md5 0 (.set "frozenset".toList []) ↔
      md5 (className "set".toList) = md5 (className "frozenset".toList) := by
  simp [calchash]

/-- **C38 (deviation).**  An `OrderedDict` is equal to a `dict` with the same items in any order, but
of the two orders of two items at most one has the hash of the `dict`, unless MD5 collides on two
different texts. -/
theorem orderedDict_differs (c c' : Bytes) (k l v w : Val) (hkl : dig md5 k ≠ dig md5 l)
    (hd : Digest md5) (hf : height (.dict false c [k, l] [v, w]) ≤ 100)
    (h1 : calchash md5 0 (.dict true c' [k, l] [v, w]) = calchash md5 0 (.dict false c [k, l] [v, w]))
    (h2 : calchash md5 0 (.dict true c' [l, k] [w, v]) = calchash md5 0 (.dict false c [k, l] [v, w])) :
    md5 (dig md5 k ++ dig md5 l ++ dig md5 v ++ dig md5 w) =
        md5 (dig md5 l ++ dig md5 k ++ dig md5 w ++ dig md5 v) ∧
      dig md5 k ++ dig md5 l ++ dig md5 v ++ dig md5 w ≠
        dig md5 l ++ dig md5 k ++ dig md5 w ++ dig md5 v := by
  have h := h1.trans h2.symm
  have e1 : height (.dict true c' [k, l] [v, w]) = height (.dict false c [k, l] [v, w]) := by
    simp only [height]
  have e2 : height (.dict true c' [l, k] [w, v]) = height (.dict false c [k, l] [v, w]) := by
    simp only [height, height.heights, List.isEmpty_cons, Bool.false_eq_true, if_false]; omega
  rw [calchash_eq 0 (by omega), calchash_eq 0 (by omega), e1, e2, if_pos (by omega), if_pos (by omega),
    Option.some.injEq, dig_ordered _ _ _ (by simp), dig_ordered _ _ _ (by simp)] at h
  refine ⟨by simpa using h, fun hc => hkl ?_⟩
  obtain ⟨t, ht⟩ := digest_eq_md5 (md5 := md5) (canon md5 k)
  obtain ⟨s, hs⟩ := digest_eq_md5 (md5 := md5) (canon md5 l)
  simp only [List.append_assoc] at hc
  exact (List.append_inj hc (by rw [dig, dig, ht, hs, hd.len, hd.len])).1

/-- **C38 (deviation).**  Keys `'a'` and `b'a'` have the same hash: the hash of a `dict` with both
depends on the order of insertion, unless MD5 collides on two different texts. -/
theorem bytes_key_order (c s : Bytes) (v w : Val) (hvw : dig md5 v ≠ dig md5 w) (hd : Digest md5)
    (hf : height (.dict false c [.str s, .str s] [v, w]) ≤ 100)
    (h : calchash md5 0 (.dict false c [.str s, .str s] [v, w]) =
      calchash md5 0 (.dict false c [.str s, .str s] [w, v])) :
    ∃ p, md5 (p ++ (dig md5 v ++ dig md5 w)) = md5 (p ++ (dig md5 w ++ dig md5 v)) ∧
      p ++ (dig md5 v ++ dig md5 w) ≠ p ++ (dig md5 w ++ dig md5 v) := by
  have e2 : height (.dict false c [.str s, .str s] [w, v]) =
      height (.dict false c [.str s, .str s] [v, w]) := by
    simp only [height, height.heights, List.isEmpty_cons, Bool.false_eq_true, if_false]; omega
  rw [calchash_eq 0 (by omega), calchash_eq 0 (by omega), e2, if_pos (by omega), if_pos (by omega),
    Option.some.injEq, dig_dict _ _ _ (by simp), dig_dict _ _ _ (by simp)] at h
  refine ⟨dig md5 (.str s) ++ dig md5 (.str s), by
    simpa [sort2, stableSort, orderedInsert] using h, fun hc => hvw ?_⟩
  have hc := List.append_cancel_left hc
  obtain ⟨t, ht⟩ := digest_eq_md5 (md5 := md5) (canon md5 v)
  obtain ⟨u, hu⟩ := digest_eq_md5 (md5 := md5) (canon md5 w)
  exact (List.append_inj hc (by rw [dig, dig, ht, hu, hd.len, hd.len])).1

/-! ## test cases -/

/-- A digest for the examples. -/
def toy (x : Bytes) : Bytes := List.replicate 32
  (if x = className "NoneType".toList then 'a'
   else if x = className "string".toList ++ ['x'] then 'b'
   else if x.head? = some 'a' then 'd' else 'c')

example : Digest toy := ⟨fun x => List.length_replicate, fun x c hc => by
  simp only [toy, List.mem_replicate] at hc
  rw [hc.2]
  split_ifs <;> decide⟩
example : NoCollision toy (canon toy (.seq [] [.none, .str ['x']])) (canon toy (.seq [] [.str ['x'], .none])) := by
  unfold NoCollision; decide
example : calchash toy 0 (.seq [] [.none, .str ['x']]) ≠ calchash toy 0 (.seq [] [.str ['x'], .none]) := by
  decide
example : calchash toy 0 (.set [] [.none, .str ['x']]) = calchash toy 0 (.set [] [.str ['x'], .none]) := by
  decide
example : calchash toy 0 (.dict false [] [.none, .str ['x']] [.str ['x'], .none]) =
    calchash toy 0 (.dict false [] [.str ['x'], .none] [.none, .str ['x']]) := by decide
example : WellKeyed toy (.dict false [] [.none, .str ['x']] [.str ['x'], .none]) :=
  ⟨⟨trivial, trivial, trivial⟩, ⟨trivial, trivial, trivial⟩, by intro _; decide⟩
example : Same (.set [] [.num (.real 1 "True".toList), .none])
    (.set ['c'] [.none, .num (.real 1 "1.0".toList)]) :=
  .set _ _ _ (.num (.real 1 "1.0".toList)) _ [.none] _ (.num _ _ (.int _ _ _ rfl))
    (.cons _ _ _ _ .none .nil) (List.Perm.swap _ _ _)
example : intText (-12) = "-12".toList := by decide
example : mergehash toy [['a'], ['b']] ≠ none := by decide
example : dig toy .none ≠ dig toy (.str ['x']) := by decide

end SC.Hashing
