import Verif.Hashing.Spec
import Mathlib.Data.List.Nodup
/-! # Hashing: helper lemmas -/
namespace SC.Hashing
open SC.Common

variable {md5 : Bytes → Bytes}

theorem textsAll_snd (l : List Canon) :
    (Canon.texts.textsAll md5 l).2 = (l.map (Canon.digest md5)).flatten := by
  induction l with
  | nil => rfl
  | cons c l ih => simp only [Canon.texts.textsAll, List.map_cons, List.flatten_cons, ih]; rfl

theorem digest_leaf (b : Bytes) : (Canon.leaf b).digest md5 = md5 b := rfl

theorem digest_node (l : List Canon) :
    (Canon.node l).digest md5 = md5 (l.map (Canon.digest md5)).flatten := by
  rw [← textsAll_snd]; rfl

theorem canons_eq_map (xs : List Val) : canons md5 xs = xs.map (canon md5) := by
  induction xs with
  | nil => rfl
  | cons x xs ih => simp [canons, ih]

/-- Digest of the canonical form of a value. -/
def dig (md5 : Bytes → Bytes) (x : Val) : Bytes := (canon md5 x).digest md5

theorem canons_digest (xs : List Val) :
    (canons md5 xs).map (Canon.digest md5) = xs.map (dig md5) := by
  rw [canons_eq_map, List.map_map]; rfl

theorem height_pos (x : Val) : 1 ≤ height x := by
  cases x <;> simp only [height] <;> (try split) <;> omega

theorem sort2_map (ks vs : List Canon) :
    ((stableSort (fun p => Canon.digest md5 p.1) (ks.zip vs)).unzip.1.map (Canon.digest md5),
      (stableSort (fun p => Canon.digest md5 p.1) (ks.zip vs)).unzip.2.map (Canon.digest md5)) =
    sort2 (ks.map (Canon.digest md5)) (vs.map (Canon.digest md5)) := by
  have h := stableSort_map (κ := Bytes) (fun p : Canon × Canon => Canon.digest md5 p.1)
    (Prod.fst : Bytes × Bytes → Bytes) (Prod.map (Canon.digest md5) (Canon.digest md5))
    (fun _ _ => Iff.rfl) (ks.zip vs)
  have hz : (ks.map (Canon.digest md5)).zip (vs.map (Canon.digest md5)) =
      (ks.zip vs).map (Prod.map (Canon.digest md5) (Canon.digest md5)) := by
    rw [List.zip_map]
  simp only [sort2, hz, ← h, List.unzip_eq_map, List.map_map]
  rfl

theorem dig_seq (c : Bytes) (xs : List Val) (h : xs ≠ []) :
    dig md5 (.seq c xs) = md5 (xs.map (dig md5)).flatten := by
  simp [dig, canon, List.isEmpty_iff, h, digest_node, canons_digest]

theorem dig_set (c : Bytes) (xs : List Val) (h : xs ≠ []) :
    dig md5 (.set c xs) = md5 (stableSort id (xs.map (dig md5))).flatten := by
  simp only [dig, canon, List.isEmpty_iff, h, if_false, digest_node]
  rw [stableSort_map (Canon.digest md5) id (Canon.digest md5) (fun _ _ => Iff.rfl), canons_digest]

theorem dig_ordered (c : Bytes) (ks vs : List Val) (h : ks ≠ []) :
    dig md5 (.dict true c ks vs) = md5 (ks.map (dig md5) ++ vs.map (dig md5)).flatten := by
  simp only [dig, canon, List.isEmpty_iff, h, if_false, if_true, digest_node, List.map_append,
    canons_digest]

theorem dig_dict (c : Bytes) (ks vs : List Val) (h : ks ≠ []) :
    dig md5 (.dict false c ks vs) = md5 ((sort2 (ks.map (dig md5)) (vs.map (dig md5))).1 ++
      (sort2 (ks.map (dig md5)) (vs.map (dig md5))).2).flatten := by
  simp only [dig, canon, List.isEmpty_iff, h, if_false, digest_node, List.map_append,
    Bool.false_eq_true]
  rw [← canons_digest, ← canons_digest, ← sort2_map]

theorem dig_arr0 (x : Val) : dig md5 (.arr0 x) = md5 (dig md5 x) := by
  simp [dig, canon, digest_node]

theorem dig_obj (x : Val) : dig md5 (.obj x) = md5 (dig md5 x) := by
  simp [dig, canon, digest_node]

theorem dig_qty (x : Val) (u : Bytes) :
    dig md5 (.qty x u) = md5 (dig md5 x ++ md5 (className "string".toList ++ u)) := by
  simp [dig, canon, digest_node, digest_leaf]

mutual
theorem calchash_eq (d : Nat) (hd : d ≤ 100) : ∀ x : Val,
    calchash md5 d x = if d + height x ≤ 100 then some (dig md5 x) else Option.none
  | .none => by
    rw [calchash, height]
    by_cases h : d = 100
    · rw [if_pos h, if_neg (by omega)]
    · rw [if_neg h, if_pos (by omega)]; rfl
  | .str s => by
    rw [calchash, height]
    by_cases h : d = 100
    · rw [if_pos h, if_neg (by omega)]
    · rw [if_neg h, if_pos (by omega)]; rfl
  | .num n => by
    rw [calchash, height]
    by_cases h : d = 100
    · rw [if_pos h, if_neg (by omega)]
    · rw [if_neg h, if_pos (by omega)]; rfl
  | .arr0 x => by
    rw [calchash, height]
    by_cases h : d = 100
    · rw [if_pos h, if_neg (by omega)]
    · rw [if_neg h, calchash_eq (d + 1) (by omega) x, dig_arr0, Nat.add_assoc]
      split <;> rfl
  | .obj x => by
    rw [calchash, height]
    by_cases h : d = 100
    · rw [if_pos h, if_neg (by omega)]
    · rw [if_neg h, calchash_eq (d + 1) (by omega) x, dig_obj, Nat.add_assoc]
      split <;> rfl
  | .qty x u => by
    rw [calchash, height]
    by_cases h : d = 100
    · rw [if_pos h, if_neg (by omega)]
    · have := height_pos x
      rw [if_neg h, calchash_eq (d + 1) (by omega) x, dig_qty, Nat.add_assoc]
      by_cases h' : d + (1 + height x) ≤ 100
      · have h2 : ¬ d + 1 = 100 := by omega
        simp [h', h2]
      · simp [h']
  | .seq c xs => by
    rw [calchash, height]
    by_cases h : d = 100
    · rw [if_pos h, if_neg (by omega)]
    · rw [if_neg h]
      cases xs with
      | nil => rw [height.heights, if_pos (by rfl), if_pos (by omega)]; rfl
      | cons x xs =>
        rw [calchashAll_eq (d + 1) (by omega) (x :: xs), dig_seq _ _ (by simp), Nat.add_assoc]
        simp only [List.isEmpty_cons, Bool.false_eq_true, if_false]
        split <;> rfl
  | .set c xs => by
    rw [calchash, height]
    by_cases h : d = 100
    · rw [if_pos h, if_neg (by omega)]
    · rw [if_neg h]
      cases xs with
      | nil => rw [height.heights, if_pos (by rfl), if_pos (by omega)]; rfl
      | cons x xs =>
        rw [calchashAll_eq (d + 1) (by omega) (x :: xs), dig_set _ _ (by simp), Nat.add_assoc]
        simp only [List.isEmpty_cons, Bool.false_eq_true, if_false]
        split <;> rfl
  | .dict o c ks vs => by
    rw [calchash, height]
    by_cases h : d = 100
    · rw [if_pos h, if_neg]; split <;> omega
    · rw [if_neg h]
      cases ks with
      | nil =>
        simp only [List.isEmpty_nil, if_true]; rw [if_pos (by omega)]; rfl
      | cons k ks =>
        rw [calchashAll_eq (d + 1) (by omega) (k :: ks), calchashAll_eq (d + 1) (by omega) vs]
        simp only [List.isEmpty_cons, Bool.false_eq_true, if_false]
        by_cases h1 : d + 1 + height.heights (k :: ks) ≤ 100
        · by_cases h2 : d + 1 + height.heights vs ≤ 100
          · rw [if_pos h1, if_pos h2, if_pos (by omega)]
            cases o
            · rw [dig_dict _ _ _ (by simp)]; rfl
            · rw [dig_ordered _ _ _ (by simp)]; rfl
          · rw [if_pos h1, if_neg h2, if_neg (by omega)]; rfl
        · rw [if_neg h1, if_neg (show ¬ d + (1 + max (height.heights (k :: ks)) (height.heights vs)) ≤ 100 by omega)]
          rfl
theorem calchashAll_eq (d : Nat) (hd : d ≤ 100) : ∀ xs : List Val,
    calchashAll md5 d xs =
      if d + height.heights xs ≤ 100 then some (xs.map (dig md5)) else Option.none
  | [] => by simp [calchashAll, height.heights, hd]
  | x :: xs => by
    rw [calchashAll, height.heights]
    rw [calchash_eq d hd x, calchashAll_eq d hd xs]
    by_cases h1 : d + height x ≤ 100
    · by_cases h2 : d + height.heights xs ≤ 100
      · rw [if_pos h1, if_pos h2, if_pos (by omega)]; rfl
      · rw [if_pos h1, if_neg h2, if_neg (by omega)]; rfl
    · rw [if_neg h1, if_neg (show ¬ d + max (height x) (height.heights xs) ≤ 100 by omega)]
      rfl
end

theorem sameNum_text {a b : Num} (h : SameNum a b) : numText a = numText b := by
  cases h with
  | int q t t' hq => simp [numText, hq]
  | _ => rfl

theorem sort_perm_eq {l l' : List Bytes} (h : l.Perm l') : stableSort id l = stableSort id l' :=
  stableSort_perm_eq id l l' h (fun _ _ _ _ h => h)

theorem sort2_perm_eq {ks vs ks' vs' : List Bytes} (hl : ks.length = vs.length)
    (hnd : ks.Nodup) (h : (ks.zip vs).Perm (ks'.zip vs')) : sort2 ks vs = sort2 ks' vs' := by
  simp only [sort2]
  rw [stableSort_perm_eq Prod.fst _ _ h]
  intro a ha b hb hab
  have hmap : ((ks.zip vs).map Prod.fst).Nodup := by
    rw [List.map_fst_zip (by omega)]; exact hnd
  exact List.inj_on_of_nodup_map hmap ha hb hab

mutual
theorem same_dig : ∀ {x y : Val}, Same x y → WellKeyed md5 x → dig md5 x = dig md5 y
  | _, _, .none, _ => rfl
  | _, _, .str _, _ => rfl
  | _, _, .num a b h, _ => by simp [dig, canon, sameNum_text h]
  | _, _, .nilSeq _, _ => rfl
  | _, _, .nilSet _, _ => rfl
  | _, _, .nilDict _ _ _, _ => rfl
  | _, _, .arr0 x y h, hw => by rw [dig_arr0, dig_arr0, same_dig h hw]
  | _, _, .obj x y h, hw => by rw [dig_obj, dig_obj, same_dig h hw]
  | _, _, .qty x y u h, hw => by rw [dig_qty, dig_qty, same_dig h hw]
  | _, _, .seq c c' x y xs ys h hs, hw => by
    rw [dig_seq _ _ (by simp), dig_seq _ _ (by simp), List.map_cons, List.map_cons,
      same_dig h hw.1, sameList_dig hs hw.2]
  | _, _, .set c c' x y xs ys zs h hs hp, hw => by
    have hz : zs ≠ [] := by rintro rfl; simp at hp
    rw [dig_set _ _ (by simp), dig_set _ _ hz, List.map_cons, same_dig h hw.1, sameList_dig hs hw.2]
    rw [← List.map_cons, sort_perm_eq (hp.map _)]
  | _, _, .ordered c c' k l ks ls vs ws h hs hv, hw => by
    rw [dig_ordered _ _ _ (by simp), dig_ordered _ _ _ (by simp), List.map_cons, List.map_cons,
      same_dig h hw.1.1, sameList_dig hs hw.1.2, sameList_dig hv hw.2.1]
  | _, _, .dict c c' k l ks ls ls' vs ws ws' h hs hv hl hl' hp, hw => by
    have e1 : (k :: ks).map (dig md5) = (l :: ls).map (dig md5) := by
      rw [List.map_cons, List.map_cons, same_dig h hw.1.1, sameList_dig hs hw.1.2]
    have e2 := sameList_dig hv hw.2.1
    have hlen : (l :: ls).length = ws.length := by
      have a := congrArg List.length e1
      have b := congrArg List.length e2
      simp only [List.length_map] at a b
      omega
    have hz : ls' ≠ [] := by
      rintro rfl
      have := hp.length_eq
      simp at this
      simp [this] at hlen
    have hnd := hw.2.2 rfl
    rw [canons_digest] at hnd
    rw [dig_dict _ _ _ (by simp), dig_dict _ _ _ hz, e1, e2]
    rw [e1] at hnd
    rw [sort2_perm_eq (ks' := ls'.map (dig md5)) (vs' := ws'.map (dig md5)) (by simpa using hlen) hnd]
    rw [List.zip_map, List.zip_map]
    exact hp.map _
theorem sameList_dig : ∀ {xs ys : List Val}, SameList xs ys → WellKeyedAll md5 xs →
    xs.map (dig md5) = ys.map (dig md5)
  | _, _, .nil, _ => rfl
  | _, _, .cons x y xs ys h hs, hw => by
    rw [List.map_cons, List.map_cons, same_dig h hw.1, sameList_dig hs hw.2]
end

mutual
theorem same_height : ∀ {x y : Val}, Same x y → height x = height y
  | _, _, .none => rfl
  | _, _, .str _ => rfl
  | _, _, .num a b h => rfl
  | _, _, .nilSeq _ => rfl
  | _, _, .nilSet _ => rfl
  | _, _, .nilDict _ _ _ => rfl
  | _, _, .arr0 x y h => by simp only [height, same_height h]
  | _, _, .obj x y h => by simp only [height, same_height h]
  | _, _, .qty x y u h => by simp only [height, same_height h]
  | _, _, .seq c c' x y xs ys h hs => by
    simp only [height, height.heights, same_height h, sameList_height hs]
  | _, _, .set c c' x y xs ys zs h hs hp => by
    have : height.heights (y :: ys) = height.heights zs := heights_perm hp
    simp only [height, ← this]
    simp only [height.heights, same_height h, sameList_height hs]
  | _, _, .ordered c c' k l ks ls vs ws h hs hv => by
    simp only [height, height.heights, same_height h, sameList_height hs, sameList_height hv,
      List.isEmpty_cons]
  | _, _, .dict c c' k l ks ls ls' vs ws ws' h hs hv hl hl' hp => by
    have a := sameList_length hs
    have b := sameList_length hv
    have hlen : (l :: ls).length = ws.length := by simp at hl ⊢; omega
    have hz : ls' ≠ [] := by
      rintro rfl
      have := hp.length_eq
      simp at this
      simp [this] at hlen
    have p1 : (l :: ls).Perm ls' := by
      have := hp.map Prod.fst
      rwa [List.map_fst_zip (by omega), List.map_fst_zip (by omega)] at this
    have p2 : ws.Perm ws' := by
      have := hp.map Prod.snd
      rwa [List.map_snd_zip (by omega), List.map_snd_zip (by omega)] at this
    have e1 := heights_perm p1
    have e2 := heights_perm p2
    have hz' : ls'.isEmpty = false := by simpa [List.isEmpty_iff] using hz
    simp only [height, List.isEmpty_cons, hz', ← e1, ← e2, sameList_height hv]
    simp only [height.heights, same_height h, sameList_height hs]
theorem sameList_height : ∀ {xs ys : List Val}, SameList xs ys →
    height.heights xs = height.heights ys
  | _, _, .nil => rfl
  | _, _, .cons x y xs ys h hs => by
    simp only [height.heights, same_height h, sameList_height hs]
theorem sameList_length : ∀ {xs ys : List Val}, SameList xs ys → xs.length = ys.length
  | _, _, .nil => rfl
  | _, _, .cons x y xs ys h hs => by simp [sameList_length hs]
theorem heights_perm {xs ys : List Val} (h : xs.Perm ys) :
    height.heights xs = height.heights ys := by
  induction h with
  | nil => rfl
  | cons x h ih => simp only [height.heights, ih]
  | swap x y l => simp only [height.heights]; omega
  | trans _ _ a b => exact a.trans b
end

theorem le_heights {x : Val} {xs : List Val} (h : x ∈ xs) : height x ≤ height.heights xs := by
  induction xs with
  | nil => cases h
  | cons a l ih =>
    simp only [height.heights]
    rcases List.mem_cons.1 h with rfl | h
    · omega
    · have := ih h; omega

end SC.Hashing
