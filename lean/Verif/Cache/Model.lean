/-! # Model of `utils/cache.py` -/
namespace SC.Cache

/-! ## LimitedSizeDict (cache.py 6-19) -/

/-- Ordered dictionary content, oldest entry first. -/
abbrev Items (κ β : Type) := List (κ × β)

/-- LimitedSizeDict, cache.py 6-20. -/
structure LDict (κ β : Type) where
  /-- `size_limit`; `none` is Python `None` -/
  limit : Option Int
  items : Items κ β

/-- `KeyError` from `popitem` on an empty dict or `del d[k]` of a missing key. -/
inductive DErr where
  | keyError
deriving DecidableEq, Repr

section dict
variable {κ β : Type} [DecidableEq κ]

/-- `OrderedDict.__setitem__`: overwriting keeps the position, new keys go last. -/
def Items.set : Items κ β → κ → β → Items κ β
  | [], k, v => [(k, v)]
  | (k', v') :: l, k, v => if k' = k then (k', v) :: l else (k', v') :: Items.set l k v

/-- `d[k]` of a dictionary. -/
def Items.get? : Items κ β → κ → Option β
  | [], _ => none
  | (k', v') :: l, k => if k' = k then some v' else Items.get? l k

/-- `del d[k]` of a dictionary. -/
def Items.erase : Items κ β → κ → Items κ β
  | [], _ => []
  | (k', v') :: l, k => if k' = k then l else (k', v') :: Items.erase l k

/-- `_check_size_limit`, cache.py 16-19: `while len(self) > limit: popitem(last=False)`. -/
def checkLimit (limit : Option Int) : Items κ β → Except DErr (Items κ β)
  | [] => match limit with
    | none => .ok []
    | some n => if (0 : Int) > n then .error .keyError else .ok []
  | p :: l => match limit with
    | none => .ok (p :: l)
    | some n => if ((p :: l).length : Int) > n then checkLimit limit l else .ok (p :: l)

/-- `__setitem__`, cache.py 12-14.  When the check raises, the dictionary has been emptied. -/
def LDict.set (d : LDict κ β) (k : κ) (v : β) : Except DErr (LDict κ β) :=
  (checkLimit d.limit (d.items.set k v)).map (fun i => { d with items := i })

/-- `__init__`, cache.py 7-10: `OrderedDict.__init__` inserts the initial pairs one by one
through `__setitem__`, then the limit is checked once more. -/
def LDict.init (limit : Option Int) (init : List (κ × β)) : Except DErr (LDict κ β) :=
  (init.foldlM (fun (d : LDict κ β) p => d.set p.1 p.2) ⟨limit, []⟩).bind
    (fun d => (checkLimit d.limit d.items).map (fun i => { d with items := i }))

/-- Mutating operations of the public dictionary API. -/
inductive DOp (κ β : Type) where
  | set : κ → β → DOp κ β
  /-- `del d[k]` / `d.pop(k)` -/
  | del : κ → DOp κ β

/-- One operation.  A failing operation leaves the dictionary as it was (only possible for `del`
of a missing key when the limit is not negative). -/
def LDict.step (d : LDict κ β) : DOp κ β → LDict κ β
  | .set k v => match d.set k v with
    | .ok d' => d'
    | .error _ => { d with items := [] }
  | .del k => { d with items := d.items.erase k }

end dict

/-! ## Cache (cache.py 22-80)

The store maps subjects to objects.  An object is identified by the serial number of the
generator call that produced it, so "same value" means "same object". -/

/-- The state of Cache, cache.py 22-26. -/
structure St (σ : Type) where
  /-- `self._store` -/
  store : List (σ × Nat)
  /-- number of generator calls so far = identity of the next generated object -/
  next : Nat

/-- Observable events. -/
inductive Ev (σ : Type) where
  /-- the generator of a subject ran and produced object `v` -/
  | gen : σ → Nat → Ev σ
  /-- `getcache(subject)` returned object `v` -/
  | read : σ → Nat → Ev σ
deriving DecidableEq

/-- Body programs: arbitrary nesting of scopes, reads, exceptions and handlers. -/
inductive Prog (σ : Type) where
  | skip : Prog σ
  | seq : Prog σ → Prog σ → Prog σ
  /-- `self.getcache(s)` -/
  | get : σ → Prog σ
  /-- `with self.cachectx(s): body` (also `@withcache(s)`, cache.py 82-101) -/
  | ctx : σ → Prog σ → Prog σ
  | raise : Prog σ
  /-- `try: body except Exception: handler` -/
  | tryExcept : Prog σ → Prog σ → Prog σ

/-- Static parameters: `force` and which subjects have a `_cache_<subject>` generator. -/
structure Cfg (σ : Type) where
  force : Bool
  hasGen : σ → Bool

section exec
variable {σ : Type} [DecidableEq σ]

/-- The value of a key of a dictionary. -/
def lookup : List (σ × Nat) → σ → Option Nat
  | [], _ => none
  | (k, v) :: l, s => if k = s then some v else lookup l s

/-- `self._store[subject] = v` for a subject not in the store -/
def storeInsert (l : List (σ × Nat)) (s : σ) (v : Nat) : List (σ × Nat) := l ++ [(s, v)]

/-- `self._store.pop(subject, None)` -/
def storePop (l : List (σ × Nat)) (s : σ) : List (σ × Nat) := l.filter (fun p => !decide (p.1 = s))

/-- `_generate_cache`, cache.py 35-39: `none` when it raises. -/
def generate (c : Cfg σ) (st : St σ) (s : σ) : Option (Nat × St σ) :=
  if c.hasGen s then some (st.next, { st with next := st.next + 1 }) else none

/-- Result: final state, whether the program ended normally, and the event trace. -/
structure Res (σ : Type) where
  st : St σ
  ok : Bool
  tr : List (Ev σ)

/-- Execution.  `ctx` follows cache.py 41-58 literally: the code after `yield` is not in a
`finally`, so it runs only when the body ends normally.  `get` follows 60-80. -/
def exec (c : Cfg σ) : Prog σ → St σ → Res σ
  | .skip, st => ⟨st, true, []⟩
  | .raise, st => ⟨st, false, []⟩
  | .seq p q, st =>
    let r := exec c p st
    if r.ok then
      let r' := exec c q r.st
      ⟨r'.st, r'.ok, r.tr ++ r'.tr⟩
    else r
  | .tryExcept p h, st =>
    let r := exec c p st
    if r.ok then r
    else
      let r' := exec c h r.st
      ⟨r'.st, r'.ok, r.tr ++ r'.tr⟩
  | .get s, st =>
    match lookup st.store s with
    | some v => ⟨st, true, [.read s v]⟩
    | none =>
      if c.force then ⟨st, false, []⟩
      else match generate c st s with
        | none => ⟨st, false, []⟩
        | some (v, st') => ⟨st', true, [.gen s v, .read s v]⟩
  | .ctx s body, st =>
    match lookup st.store s with
    | some _ => exec c body st
    | none =>
      match generate c st s with
      | none => ⟨st, false, []⟩
      | some (v, st') =>
        let r := exec c body { st' with store := storeInsert st'.store s v }
        if r.ok then ⟨{ r.st with store := storePop r.st.store s }, true, .gen s v :: r.tr⟩
        else ⟨r.st, false, .gen s v :: r.tr⟩

end exec

end SC.Cache
