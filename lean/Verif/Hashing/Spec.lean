import Verif.Hashing.Model
/-! # Specification of content hashing -/
namespace SC.Hashing
open SC.Common

/-- What is used about the MD5 hex digest: fixed length, no `<`. -/
structure Digest (md5 : Bytes → Bytes) : Prop where
  len : ∀ x, (md5 x).length = 32
  hex : ∀ x, ∀ c ∈ md5 x, c ≠ '<'

/-- Number of nested levels of a value. -/
def height : Val → Nat
  | .none => 1
  | .str _ => 1
  | .num _ => 1
  | .seq _ xs => 1 + heights xs
  | .set _ xs => 1 + heights xs
  | .dict _ _ ks vs => if ks.isEmpty then 1 else 1 + max (heights ks) (heights vs)
  | .arr0 x => 1 + height x
  | .qty m _ => 1 + height m
  | .obj s => 1 + height s
where
  /-- maximal height of a list of values -/
  heights : List Val → Nat
  | [] => 0
  | x :: xs => max (height x) (heights xs)

/-- The same number, as far as the texts allow: equal integers, or an equal text.  (Equal
non-integers of different types can have different texts.) -/
inductive SameNum : Num → Num → Prop
  | int (q : Rat) (t t' : Bytes) : q.den = 1 → SameNum (.real q t) (.real q t')
  | real (q : Rat) (t : Bytes) : SameNum (.real q t) (.real q t)
  | cplx (a b : Rat) (t : Bytes) : SameNum (.cplx a b t) (.cplx a b t)
  | special (t : Bytes) : SameNum (.special t) (.special t)

mutual
/-- Equal values: elements of sets and items of unordered mappings may come in a different order,
integers may have a different type, non-empty containers a different class. -/
inductive Same : Val → Val → Prop
  | none : Same .none .none
  | str (s : Bytes) : Same (.str s) (.str s)
  | num (a b : Num) : SameNum a b → Same (.num a) (.num b)
  | nilSeq (c : Bytes) : Same (.seq c []) (.seq c [])
  | nilSet (c : Bytes) : Same (.set c []) (.set c [])
  | nilDict (o o' : Bool) (c : Bytes) : Same (.dict o c [] []) (.dict o' c [] [])
  | seq (c c' : Bytes) (x y : Val) (xs ys : List Val) : Same x y → SameList xs ys →
      Same (.seq c (x :: xs)) (.seq c' (y :: ys))
  | set (c c' : Bytes) (x y : Val) (xs ys zs : List Val) : Same x y → SameList xs ys →
      (y :: ys).Perm zs → Same (.set c (x :: xs)) (.set c' zs)
  | ordered (c c' : Bytes) (k l : Val) (ks ls vs ws : List Val) : Same k l → SameList ks ls →
      SameList vs ws → Same (.dict true c (k :: ks) vs) (.dict true c' (l :: ls) ws)
  | dict (c c' : Bytes) (k l : Val) (ks ls ls' vs ws ws' : List Val) : Same k l → SameList ks ls →
      SameList vs ws → (k :: ks).length = vs.length → ls'.length = ws'.length →
      ((l :: ls).zip ws).Perm (ls'.zip ws') →
      Same (.dict false c (k :: ks) vs) (.dict false c' ls' ws')
  | arr0 (x y : Val) : Same x y → Same (.arr0 x) (.arr0 y)
  | qty (x y : Val) (u : Bytes) : Same x y → Same (.qty x u) (.qty y u)
  | obj (x y : Val) : Same x y → Same (.obj x) (.obj y)
/-- elementwise -/
inductive SameList : List Val → List Val → Prop
  | nil : SameList [] []
  | cons (x y : Val) (xs ys : List Val) : Same x y → SameList xs ys → SameList (x :: xs) (y :: ys)
end

/-- What a hash identifies: a tagged text or a list of such. -/
inductive Canon where
  | leaf (b : Bytes)
  | node (l : List Canon)

/-- The texts whose digests occur in the hash of a value. -/
def Canon.texts (md5 : Bytes → Bytes) : Canon → List Bytes × Bytes
  | .leaf b => ([b], md5 b)
  | .node l => let r := textsAll md5 l; (r.2 :: r.1, md5 r.2)
where
  /-- of a list: all texts, and the concatenation of the digests -/
  textsAll (md5 : Bytes → Bytes) : List Canon → List Bytes × Bytes
  | [] => ([], [])
  | c :: l =>
    let a := Canon.texts md5 c
    let r := textsAll md5 l
    (a.1 ++ r.1, a.2 ++ r.2)

/-- The digest of a canonical form. -/
def Canon.digest (md5 : Bytes → Bytes) (c : Canon) : Bytes := (c.texts md5).2

mutual
/-- Canonical form of a value: it forgets the kind of non-empty containers, the order of sets and of
the items of unordered mappings (elements are put in the order of their digests). -/
def canon (md5 : Bytes → Bytes) : Val → Canon
  | .none => .leaf (className "NoneType".toList)
  | .str s => .leaf (className "string".toList ++ s)
  | .num n => .leaf (className "number".toList ++ numText n)
  | .seq c xs => if xs.isEmpty then .leaf (className c) else .node (canons md5 xs)
  | .set c xs => if xs.isEmpty then .leaf (className c) else
      .node (stableSort (Canon.digest md5) (canons md5 xs))
  | .dict ordered c ks vs => if ks.isEmpty then .leaf (className c) else
      if ordered then .node (canons md5 ks ++ canons md5 vs) else
        let p := (stableSort (fun p => Canon.digest md5 p.1) ((canons md5 ks).zip (canons md5 vs))).unzip
        .node (p.1 ++ p.2)
  | .arr0 x => .node [canon md5 x]
  | .qty m u => .node [canon md5 m, .leaf (className "string".toList ++ u)]
  | .obj s => .node [canon md5 s]
/-- canonical forms of a list of values -/
def canons (md5 : Bytes → Bytes) : List Val → List Canon
  | [] => []
  | x :: xs => canon md5 x :: canons md5 xs
end

/-- `md5` has no collision among the texts used for two canonical forms. -/
def NoCollision (md5 : Bytes → Bytes) (a b : Canon) : Prop :=
  ∀ u ∈ (a.texts md5).1, ∀ v ∈ (b.texts md5).1, md5 u = md5 v → u = v

mutual
/-- The keys of every unordered mapping inside a value have different digests. -/
def WellKeyed (md5 : Bytes → Bytes) : Val → Prop
  | .none => True
  | .str _ => True
  | .num _ => True
  | .seq _ xs => WellKeyedAll md5 xs
  | .set _ xs => WellKeyedAll md5 xs
  | .dict ordered _ ks vs => WellKeyedAll md5 ks ∧ WellKeyedAll md5 vs ∧
      (ordered = false → ((canons md5 ks).map (Canon.digest md5)).Nodup)
  | .arr0 x => WellKeyed md5 x
  | .qty m _ => WellKeyed md5 m
  | .obj s => WellKeyed md5 s
/-- ... of every value of a list -/
def WellKeyedAll (md5 : Bytes → Bytes) : List Val → Prop
  | [] => True
  | x :: xs => WellKeyed md5 x ∧ WellKeyedAll md5 xs
end

/-- Same depth everywhere -/
abbrev fits (x : Val) : Prop := height x ≤ 100

end SC.Hashing
