/-!
# Classes of signals: `SignalGroup` subclasses and their instances

Class creation (`__set_name__`, `__init_subclass__`), instances (`__init__`), attribute access.  Classes are made with any
order of base classes (the MRO is given), any names, any `Signal(name=...)`, any object under several names.

Simplifications: names are numbers, ordered as `dir()` orders them; class attributes that are not signals are plain or data
descriptors without a setter; class attributes do not change after the class has been made; `super().__init_subclass__()`
of other bases and metaclasses are left out; groups are not collected (their addresses, see `Inst`, are not reused).
-/
namespace Psygnal.GC

/-- A class attribute: a `Signal` (an object, by number), something else, a data descriptor such as the properties at
`/repo/src/psygnal/_group.py:343` and `:365`. -/
inductive Attr where
  | signal (s : Nat)
  | plain
  | data
  deriving DecidableEq, Repr

/-- A class: the classes after it in its MRO, its `__dict__`, and what `__init_subclass__` stores on it
(`/repo/src/psygnal/_group.py:258-261`, `:308-336`). -/
structure Cls where
  mro : List Nat
  dict : List (Nat × Attr)
  signals : Option (List (Nat × Nat))
  conflicts : List Nat
  uniform : Bool
  deriving DecidableEq, Repr

/-- A `SignalInstance`: its `Signal`, its group, its name (`/repo/src/psygnal/_signal.py:395-406`). -/
structure SI where
  sig : Nat
  group : Nat
  name : Option Nat
  deriving DecidableEq, Repr

/-- An instance of a group: its class, its `__dict__` as far as signals are cached there
(`/repo/src/psygnal/_signal.py:374`), `_psygnal_instances` (`/repo/src/psygnal/_group.py:272-279`). -/
structure Grp where
  cls : Nat
  dict : List (Nat × Nat)
  inst : List (Nat × Nat)
  deriving DecidableEq, Repr

/-- Names starting with `_psygnal`, or with one of `_psygnal` and `psygnal` (`/repo/src/psygnal/_group.py:291`, `:318`); the
annotations of the signals (`:546`). -/
structure Env where
  forbidden : Nat → Bool
  prefixed : Nat → Bool
  annot : Nat → List Nat

/-- The classes (number 0 is `SignalGroup`, `/repo/src/psygnal/_group.py:213`), the names of the signals
(`/repo/src/psygnal/_signal.py:304`), their caches (`:310`), the groups, the signal instances. -/
structure St where
  classes : List Cls
  names : Nat → Option Nat
  cache : List ((Nat × Nat) × Nat)
  groups : List Grp
  sis : List SI

/-- What creating a class or a group, or reading an attribute, may raise (`/repo/src/psygnal/_group.py:268`, `:294`, `:322`,
`:338`, `:392`). -/
inductive Err where
  | forbidden
  | attribute
  | strict
  | abstract
  deriving DecidableEq, Repr

/-- `d[k] = v` (dict display of `/repo/src/psygnal/_group.py:308-311`): the place of an existing key stays. -/
def put {α : Type} (k : Nat) (v : α) : List (Nat × α) → List (Nat × α)
  | [] => [(k, v)]
  | (k', v') :: l => if k' = k then (k, v) :: l else (k', v') :: put k v l

/-- `{**a, **b}` (`/repo/src/psygnal/_group.py:308-311`). -/
def merge {α : Type} (a b : List (Nat × α)) : List (Nat × α) := b.foldl (fun d x => put x.1 x.2 d) a

/-- Insert in order, once (`dir`, `/repo/src/psygnal/_group.py:300`). -/
def insertName (k : Nat) : List Nat → List Nat
  | [] => [k]
  | x :: l => if k < x then k :: x :: l else if k = x then x :: l else x :: insertName k l

/-- Sorted, without duplicates (`dir`, `/repo/src/psygnal/_group.py:300`). -/
def sortNames (l : List Nat) : List Nat := l.foldr insertName []

/-- The `__dict__` of a class (`/repo/src/psygnal/_group.py:301`). -/
def St.dictOf (σ : St) (c : Nat) : List (Nat × Attr) := ((σ.classes[c]?).map Cls.dict).getD []

/-- Look an attribute up in the `__dict__`s of classes, in order (`getattr(cls, k)`, `/repo/src/psygnal/_group.py:301`). -/
def lookMro (ds : List (List (Nat × Attr))) (k : Nat) : Option Attr := ds.findSome? fun d => d.lookup k

/-- The `__dict__`s of a class and of those after it (`/repo/src/psygnal/_group.py:301`). -/
def St.dicts (σ : St) (c : Nat) : List (List (Nat × Attr)) :=
  match σ.classes[c]? with
  | none => []
  | some cl => cl.dict :: cl.mro.map σ.dictOf

/-- `getattr(cls, k)` on a class (`/repo/src/psygnal/_group.py:301`). -/
def St.attr (σ : St) (c k : Nat) : Option Attr := lookMro (σ.dicts c) k

/-- `Signal.__set_name__` for each attribute of the class body (`/repo/src/psygnal/_signal.py:328-331`). -/
def setNames (dict : List (Nat × Attr)) (names : Nat → Option Nat) : Nat → Option Nat :=
  dict.foldl (fun ns x => match x.2 with
    | .signal s => fun s' => if s' = s ∧ ns s = none then some x.1 else ns s'
    | _ => ns) names

/-- `_is_uniform` (`/repo/src/psygnal/_group.py:542-550`). -/
def isUniform (annot : Nat → List Nat) : List (List Nat) → List Nat → Bool
  | _, [] => true
  | seen, s :: l => if seen ≠ [] ∧ annot s ∉ seen then false else isUniform annot (annot s :: seen) l

/-- The loop over the conflicts (`/repo/src/psygnal/_group.py:321-323`): remove those that are signals from the class.
The order of the set does not matter. -/
def delConflicts (mro : List (List (Nat × Attr))) : List Nat → List (Nat × Attr) → Except Err (List (Nat × Attr))
  | [], dict => .ok dict
  | k :: ks, dict =>
    match lookMro (dict :: mro) k with
    | none => .error .attribute
    | some (.signal _) =>
      if (dict.lookup k).isSome then delConflicts mro ks (dict.filter fun x => x.1 ≠ k) else .error .attribute
    | some _ => delConflicts mro ks dict

/-- The signals found on the class (`/repo/src/psygnal/_group.py:299-303`). -/
def collect (ds : List (List (Nat × Attr))) : List (Nat × Nat) :=
  (sortNames (ds.flatten.map Prod.fst)).filterMap fun k => match lookMro ds k with
    | some (.signal s) => some (k, s)
    | _ => none

/-- `getattr(cls, "_psygnal_signals", {})` (`/repo/src/psygnal/_group.py:309`): of the first class that has it. -/
def St.inherited (σ : St) (mro : List Nat) : List (Nat × Nat) :=
  (mro.findSome? fun c => (σ.classes[c]?).bind Cls.signals).getD []

/-- Is the name reserved?  (`/repo/src/psygnal/_group.py:313-319`; class 0 has the attributes of `SignalGroup`) -/
def St.conflict (σ : St) (e : Env) (k : Nat) : Bool := ((σ.dictOf 0).lookup k).isSome || e.prefixed k

/-- Make a class with this body and these classes after it in the MRO (`type.__new__`, `/repo/src/psygnal/_signal.py:328`; then
`/repo/src/psygnal/_group.py:282-341` if `SignalGroup` is among them). -/
def mkClass (e : Env) (mro : List Nat) (dict : List (Nat × Attr)) (strict : Bool) (σ : St) : Except Err Nat × St :=
  let σ1 := { σ with names := setNames dict σ.names }
  if 0 ∈ mro then
    if dict.any fun x => e.forbidden x.1 then (.error .forbidden, σ1)
    else
      let ds := mro.map σ.dictOf
      let signals := merge (σ.inherited mro) (collect (dict :: ds))
      let conflicts := (signals.map Prod.fst).filter (σ.conflict e)
      match delConflicts ds conflicts dict with
      | .error err => (.error err, σ1)
      | .ok dict' =>
        let uniform := isUniform e.annot [] (signals.map Prod.snd)
        if strict && !uniform then (.error .strict, σ1)
        else (.ok σ.classes.length, { σ1 with classes := σ.classes ++ [⟨mro, dict', some signals, conflicts, uniform⟩] })
  else (.ok σ.classes.length, { σ1 with classes := σ.classes ++ [⟨mro, dict, none, [], false⟩] })

/-- `Signal._create_signal_instance` (`/repo/src/psygnal/_signal.py:395-406`). -/
def create (s g : Nat) (σ : St) : Nat × St := (σ.sis.length, { σ with sis := σ.sis ++ [⟨s, g, σ.names s⟩] })

/-- Change the `__dict__` of a group (`/repo/src/psygnal/_signal.py:374`). -/
def St.setDict (σ : St) (g k i : Nat) : St :=
  { σ with groups := σ.groups.modify g fun gr => { gr with dict := put k i gr.dict } }

/-- `Signal.__get__` with an instance (`/repo/src/psygnal/_signal.py:363-380`).  `setattr` fails if the class has a data
descriptor under that name, and then the cache of the signal is used. -/
def get (s g c : Nat) (σ : St) : Nat × St :=
  match σ.cache.lookup (s, g) with
  | some i => (i, σ)
  | none =>
    let r := create s g σ
    match σ.names s with
    | none => r
    | some k =>
      if σ.attr c k = some .data then (r.1, { r.2 with cache := ((s, g), r.1) :: r.2.cache })
      else (r.1, r.2.setDict g k r.1)

/-- The dict comprehension of `SignalGroup.__init__` (`/repo/src/psygnal/_group.py:272-279`). -/
def instances (g c : Nat) (conflicts : List Nat) : List (Nat × Nat) → St → List (Nat × Nat) × St
  | [], σ => ([], σ)
  | (k, s) :: l, σ =>
    let r := if k ∈ conflicts then create s g σ else get s g c σ
    let r' := instances g c conflicts l r.2
    ((k, r.1) :: r'.1, r'.2)

/-- `SignalGroup.__init__` (`/repo/src/psygnal/_group.py:265-280`). -/
def mkGroup (c : Nat) (σ : St) : Except Err Nat × St :=
  match (σ.classes[c]?).bind fun cl => cl.signals.map (cl.conflicts, ·) with
  | none => (.error .abstract, σ)
  | some (conflicts, signals) =>
    let g := σ.groups.length
    let r := instances g c conflicts signals { σ with groups := σ.groups ++ [⟨c, [], []⟩] }
    (.ok g, { r.2 with groups := r.2.groups.modify g fun gr => { gr with inst := r.1 } })

/-- What reading an attribute of a group gives (`/repo/src/psygnal/_group.py:382-394`). -/
inductive Val where
  | si (i : Nat)
  | other
  | none
  deriving DecidableEq, Repr

/-- `getattr(group, k)`: data descriptors of the class, then the `__dict__`, then the class (Python's rules;
`/repo/src/psygnal/_group.py:390-394` if there is nothing). -/
def getAttr (g k : Nat) (σ : St) : Val × St :=
  match σ.groups[g]? with
  | none => (.none, σ)
  | some gr =>
    match σ.attr gr.cls k with
    | some .data => (.other, σ)
    | a =>
      match gr.dict.lookup k with
      | some i => (.si i, σ)
      | none =>
        match a with
        | some (.signal s) =>
          let r := get s g gr.cls σ
          (.si r.1, r.2)
        | some _ => (.other, σ)
        | none => (.none, σ)

/-- `group[k]` (`/repo/src/psygnal/_group.py:382-384`). -/
def St.item (σ : St) (g k : Nat) : Option Nat := (σ.groups[g]?).bind fun gr => gr.inst.lookup k

/-- `list(group)` (`/repo/src/psygnal/_group.py:396-398`). -/
def St.keys (σ : St) (g : Nat) : List Nat := ((σ.groups[g]?).map fun gr => gr.inst.map Prod.fst).getD []

/-- `len(group)` (`/repo/src/psygnal/_group.py:378-380`; also shown by `repr`, `:406-409`). -/
def St.len (σ : St) (g : Nat) : Nat := ((σ.groups[g]?).map fun gr => gr.inst.length).getD 0

/-- `k in group` (`/repo/src/psygnal/_group.py:400-404`). -/
def St.has (σ : St) (g k : Nat) : Bool := ((σ.groups[g]?).map fun gr => gr.inst.any fun x => x.1 == k).getD false

/-- `group.signals.items()` (`/repo/src/psygnal/_group.py:365-376`), unless the class has another attribute of that name. -/
def St.items (σ : St) (g : Nat) : List (Nat × Nat) := ((σ.groups[g]?).map Grp.inst).getD []

/-- `cls.psygnals_uniform()` and `cls.is_uniform()` (`/repo/src/psygnal/_group.py:411-425`); `false` on `SignalGroup` itself. -/
def St.uniform (σ : St) (c : Nat) : Bool := ((σ.classes[c]?).map Cls.uniform).getD false

/-- What a program does with groups (`/repo/src/psygnal/_group.py:265`, `:282`; attribute access). -/
inductive Op where
  | cls (mro : List Nat) (dict : List (Nat × Attr)) (strict : Bool)
  | group (c : Nat)
  | read (g k : Nat)
  deriving Repr

/-- Do one operation (`/repo/src/psygnal/_group.py:265`, `:282`; attribute access). -/
def step (e : Env) : Op → St → St
  | .cls mro dict strict, σ => (mkClass e mro dict strict σ).2
  | .group c, σ => (mkGroup c σ).2
  | .read g k, σ => (getAttr g k σ).2

/-- Do operations (`/repo/src/psygnal/_group.py:265`, `:282`; attribute access). -/
def run (e : Env) : List Op → St → St
  | [], σ => σ
  | o :: os, σ => run e os (step e o σ)

/-- Nothing but `SignalGroup` (`/repo/src/psygnal/_group.py:213`), with attributes `base`. -/
def init (base : List (Nat × Attr)) (names : Nat → Option Nat) : St where
  classes := [⟨[], base, none, [], false⟩]
  names := names
  cache := []
  groups := []
  sis := []

end Psygnal.GC
