import Verif.Browse.Model
import Verif.Scan.CmdProps
import Verif.Stack.Lemmas
/-! # C84: browsing -/
namespace SC.Browse

variable {N : Type}

mutual
/-- Specification: all that is below, with relative path, and whether it is a directory. -/
def Node.content : Node N → List (List N × Bool)
  | .file => []
  | .dir es => es.content
def Entries.content : Entries N → List (List N × Bool)
  | .nil => []
  | .cons n x rest => ([n], x.isDir) :: (x.content.map fun e => (n :: e.1, e.2)) ++ rest.content
end

mutual
/-- The paths in a tree. -/
def Out.list : Out N → List (List N)
  | .node p none => p.toList
  | .node p (some l) => p.toList ++ Out.listAll l
def Out.listAll : List (Out N) → List (List N)
  | [] => []
  | o :: l => o.list ++ Out.listAll l
end

mutual
theorem Node.content_ne (x : Node N) : ∀ e ∈ x.content, 1 ≤ e.1.length := by
  cases x with
  | file => simp [Node.content]
  | dir es => rw [Node.content]; exact Entries.content_ne es
theorem Entries.content_ne (es : Entries N) : ∀ e ∈ es.content, 1 ≤ e.1.length := by
  cases es with
  | nil => simp [Entries.content]
  | cons n x rest =>
    intro e he
    rw [Entries.content, List.cons_append, List.mem_cons, List.mem_append] at he
    rcases he with rfl | he | he
    · simp
    · obtain ⟨d, _, rfl⟩ := List.mem_map.mp he; simp
    · exact Entries.content_ne rest e he
end

theorem filter_map_cons {A : Type} (f : List N × Bool → Bool) (g : List N × Bool → A) (n : N) (l : List (List N × Bool)) :
    ((l.map fun e => (n :: e.1, e.2)).filter f).map g =
      (l.filter fun e => f (n :: e.1, e.2)).map fun e => g (n :: e.1, e.2) := by
  induction l with
  | nil => rfl
  | cons a l ih =>
    simp only [List.map_cons, List.filter_cons]
    split <;> simp [ih]

mutual
/-- **C84.**  A recursive tree shows the directory and everything below it, in order, without the files when
they are not asked for. -/
theorem tree_all (depth : Int) (files : Bool) (level : Int) (p : List N) (x : Node N) :
    (tree true depth files level p x).list =
      (if x.isDir || files then [p] else []) ++ (x.content.filter fun e => e.2 || files).map (p ++ ·.1) := by
  cases x with
  | file => cases files <;> simp [tree, Out.list, Node.isDir, Node.content]
  | dir es =>
    rw [tree, Out.list, treeList_all depth files level p es]
    simp [Node.isDir, Node.content]
theorem treeList_all (depth : Int) (files : Bool) (level : Int) (p : List N) (es : Entries N) :
    Out.listAll (treeList true depth files level p es) = (es.content.filter fun e => e.2 || files).map (p ++ ·.1) := by
  cases es with
  | nil => simp [treeList, Out.listAll, Entries.content]
  | cons n x rest =>
    have ir := treeList_all depth files level p rest
    rw [Entries.content, List.cons_append, List.filter_cons, List.filter_append]
    cases x with
    | file =>
      cases files <;> simp [treeList, Out.listAll, Out.list, Node.isDir, Node.content] at ir ⊢ <;> exact ir
    | dir sub =>
      have id := tree_all depth files (level + 1) (p ++ [n]) (.dir sub)
      simp only [treeList, Bool.not_true, Bool.false_and, Bool.false_eq_true, if_false, Out.listAll, id, ir, Node.isDir,
        Bool.true_or, if_true, List.map_cons, List.map_append, filter_map_cons]
      simp
end

/-- **C84.**  A tree that is not recursive shows what is at most `depth + 1` levels below. -/
theorem treeList_depth (files : Bool) (k : Nat) (depth level : Int) (hk : depth = level + k) (p : List N) : ∀ es : Entries N,
    Out.listAll (treeList false depth files level p es) =
      (es.content.filter fun e => (e.2 || files) && decide (e.1.length ≤ k + 1)).map (p ++ ·.1)
  | .nil => by simp [treeList, Out.listAll, Entries.content]
  | .cons n .file rest => by
    have ir := treeList_depth files k depth level hk p rest
    rw [Entries.content, List.cons_append, List.filter_cons, List.filter_append]
    cases files <;> simp [treeList, Out.listAll, Out.list, Node.isDir, Node.content] at ir ⊢ <;> exact ir
  | .cons n (.dir sub) rest => by
    have ir := treeList_depth files k depth level hk p rest
    rw [Entries.content, List.cons_append, List.filter_cons, List.filter_append]
    cases k with
    | zero =>
      have hd : (level == depth) = true := by simp [hk]
      have h0 : (((Node.dir sub).content.map fun e => (n :: e.1, e.2)).filter
          fun e => (e.2 || files) && decide (e.1.length ≤ 0 + 1)) = [] := by
        rw [List.filter_eq_nil_iff]
        intro e he
        obtain ⟨d, hd, rfl⟩ := List.mem_map.mp he
        have := Node.content_ne _ d hd
        have h2 : decide ((n :: d.1).length ≤ 0 + 1) = false := by
          rw [decide_eq_false_iff_not, List.length_cons]; omega
        simp only [h2, Bool.and_false, Bool.false_eq_true, not_false_eq_true]
      rw [h0, treeList]
      simp only [Bool.not_false, Bool.true_and, hd, if_true, Out.listAll, ir, Out.list, Node.isDir, Bool.true_or,
        List.map_cons, List.length_singleton, Option.toList_some]
      simp
    | succ k =>
      have hd : (level == depth) = false := by simp [hk]; omega
      have is := treeList_depth files k depth (level + 1) (by rw [hk]; push_cast; ring) (p ++ [n]) sub
      rw [treeList]
      simp only [Bool.not_false, Bool.true_and, hd, Bool.false_eq_true, if_false, Out.listAll, ir, Out.list, tree, is,
        Node.isDir, Bool.true_or, List.map_append, filter_map_cons, Node.content, Option.toList_some]
      have e : (((sub.content.map fun e => (n :: e.1, e.2)).filter
          fun e => (e.2 || files) && decide (e.1.length ≤ k + 1 + 1)).map (p ++ ·.1)) =
          (sub.content.filter fun e => (e.2 || files) && decide (e.1.length ≤ k + 1)).map (p ++ [n] ++ ·.1) := by
        rw [filter_map_cons]; simp
      simp only [List.length_singleton, Nat.le_add_left, decide_true, Bool.and_true, if_true, List.map_cons, List.map_append, e]
      simp
  termination_by es => sizeOf es

/-- **C84 (deviation).**  With a negative depth a tree that is not recursive is recursive. -/
theorem treeList_negative (files : Bool) (depth level : Int) (hk : depth < level) (p : List N) : ∀ es : Entries N,
    treeList false depth files level p es = treeList true depth files level p es
  | .nil => by simp [treeList]
  | .cons n .file rest => by
    have ir := treeList_negative files depth level hk p rest
    simp [treeList, ir]
  | .cons n (.dir sub) rest => by
    have ir := treeList_negative files depth level hk p rest
    have is := treeList_negative files depth (level + 1) (by omega) (p ++ [n]) sub
    have hd : (level == depth) = false := by simp; omega
    simp only [treeList, ir, hd, Bool.and_false, Bool.false_eq_true, if_false, tree, is]
  termination_by es => sizeOf es

/-- **C84.**  A search that is not recursive finds the entries of the directory that match, without files when they
are not asked for. -/
theorem find_flat (depth : Int) (files : Bool) (m : List N → Bool) (level : Int) (p : List N) : ∀ es : Entries N,
    find false depth files m level p es =
      (es.content.filter fun e => decide (e.1.length = 1) && (e.2 || files) && m (p ++ e.1)).map (p ++ ·.1)
  | .nil => by simp [find, Entries.content]
  | .cons n x rest => by
    have ir := find_flat depth files m level p rest
    have h0 : ((x.content.map fun e => (n :: e.1, e.2)).filter
        fun e => decide (e.1.length = 1) && (e.2 || files) && m (p ++ e.1)) = [] := by
      rw [List.filter_eq_nil_iff]
      intro e he
      obtain ⟨d, hd, rfl⟩ := List.mem_map.mp he
      have := Node.content_ne _ d hd
      have : d.1 ≠ [] := by intro h; simp [h] at this
      simp [this]
    rw [Entries.content, List.cons_append, List.filter_cons, List.filter_append, h0, find]
    have hb : findBelow false depth m level (p ++ [n]) x = [] := by cases x <;> simp [findBelow]
    simp only [hb, ir]
    cases x <;> cases files <;> cases hm : m (p ++ [n]) <;> simp [Node.isDir, hm]

/-- **C84 (deviation).**  A recursive search does not descend for any depth that is not negative, in particular not with
the default: it finds what the search that is not recursive finds. -/
theorem find_recursive_flat (depth : Int) (hd : 0 ≤ depth) (files : Bool) (m : List N → Bool) (p : List N) : ∀ es : Entries N,
    find true depth files m 0 p es = find false depth files m 0 p es
  | .nil => by simp [find]
  | .cons n x rest => by
    have ir := find_recursive_flat depth hd files m p rest
    have hb : findBelow true depth m 0 (p ++ [n]) x = findBelow false depth m 0 (p ++ [n]) x := by
      cases x
      · simp [findBelow]
      · have : ¬ (0 > depth) := by omega
        simp [findBelow, this]
    rw [find, find, ir, hb]

/-- **C84.**  With a negative depth a recursive search finds all that matches, except files directly in the directory when
they are not asked for (files deeper down are found all the same). -/
theorem find_deep (depth : Int) (files : Bool) (m : List N → Bool) (level : Int) (hl : depth < level) (p : List N) :
    ∀ es : Entries N, find true depth files m level p es =
      (es.content.filter fun e => (files || e.2 || decide (1 < e.1.length)) && m (p ++ e.1)).map (p ++ ·.1)
  | .nil => by simp [find, Entries.content]
  | .cons n .file rest => by
    have ir := find_deep depth files m level hl p rest
    rw [Entries.content, List.cons_append, List.filter_cons, List.filter_append, find, ir]
    cases files <;> cases hm : m (p ++ [n]) <;> simp [Node.isDir, Node.content, findBelow, hm]
  | .cons n (.dir sub) rest => by
    have ir := find_deep depth files m level hl p rest
    have is := find_deep depth true m (level + 1) (by omega) (p ++ [n]) sub
    have hc : ((((Node.dir sub).content.map fun e => (n :: e.1, e.2)).filter
        fun e => (files || e.2 || decide (1 < e.1.length)) && m (p ++ e.1)).map (p ++ ·.1)) =
        (sub.content.filter fun e => (true || e.2 || decide (1 < e.1.length)) && m (p ++ [n] ++ e.1)).map (p ++ [n] ++ ·.1) := by
      rw [filter_map_cons, Node.content]
      have hf : ∀ e ∈ sub.content, ((files || e.2 || decide (1 < (n :: e.1).length)) && m (p ++ n :: e.1)) =
          ((true || e.2 || decide (1 < e.1.length)) && m (p ++ [n] ++ e.1)) := by
        intro e he
        have h1 := Entries.content_ne _ e he
        have h2 : decide (1 < (n :: e.1).length) = true := by
          rw [decide_eq_true_eq, List.length_cons]; omega
        rw [h2]; simp
      rw [List.filter_congr hf]
      simp
    rw [Entries.content, List.cons_append, List.filter_cons, List.filter_append, find, ir, findBelow]
    have hg : (true && decide (level > depth)) = true := by simp; omega
    simp only [hg, if_true, is]
    cases files <;> cases hm : m (p ++ [n]) <;> simp [Node.isDir, hm] <;> simpa using hc.symm
  termination_by es => sizeOf es

end SC.Browse
