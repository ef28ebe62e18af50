/-!
# Temporary settings: `no_class_attributes` and `enums_as_values`
(`/repo/src/psygnal/_evented_model.py:62-104, 670-715`)

Two global settings are changed by context managers: the object `pydantic_main.ClassAttribute` used when a model class is created, and the entry
`use_enum_values` in the configuration of a class.  Programs use the context managers in any nesting, may raise and may catch.
-/
namespace Psygnal.Temp

/-- What can be seen: which `ClassAttribute` a class creation uses, and which `use_enum_values` a reading of a configuration gives
(`/repo/src/psygnal/_evented_model.py:63, 673, 696-698`). -/
inductive Seen
  | made (attr : Nat)
  | read (cfg : Nat) (value : Option Bool)
  deriving DecidableEq, Repr

/-- `pydantic_main.ClassAttribute` (0: `utils.ClassAttribute`, 1: `_return2`, others: other objects), whether `PySide2` is in `sys.modules`, the
entries `use_enum_values` of the configurations, and what has been seen (`/repo/src/psygnal/_evented_model.py:90-104, 682-690, 707-715`). -/
structure St where
  attr : Nat := 0
  pyside : Bool := false
  own : Nat → Option Bool := fun _ => none
  log : List Seen := []

/-- The other configurations in which an attribute of a configuration is looked up, in order: with pydantic 1 the configurations are
classes (`/repo/src/psygnal/_evented_model.py:682`); with pydantic 2 they are dictionaries and the list is empty (`:707`). -/
abbrev Bases := Nat → List Nat

/-- `getattr(self.Config, "use_enum_values", NULL)` (`/repo/src/psygnal/_evented_model.py:682`) and
`cls.model_config.get("use_enum_values", NULL)` (`:707`). -/
def lookup (bases : Bases) (own : Nat → Option Bool) (c : Nat) : Option Bool := (c :: bases c).findSome? own

/-- Programs.  The program after a `with` statement is told whether the statement ended without exception; it may raise again
(`/repo/src/psygnal/_evented_model.py:62-63, 672-673, 694-698`). -/
inductive Body
  | ret
  | raise
  | make (k : Body)
  | read (c : Nat) (k : Option Bool → Body)
  | setAttr (v : Nat) (k : Body)
  | setCfg (c : Nat) (v : Option Bool) (k : Body)
  | importPySide (k : Body)
  | noAttrs (inner : Body) (k : Bool → Body)
  | enums (c : Nat) (v : Bool) (inner : Body) (k : Bool → Body)

/-- Setting or removing an entry (`/repo/src/psygnal/_evented_model.py:683,688,690,708,713,715`). -/
def setOwn (own : Nat → Option Bool) (c : Nat) (v : Option Bool) : Nat → Option Bool := fun d => if d = c then v else own d

/-- The end of `enums_as_values`: restore the old value, or remove the entry, which raises when it is not there any more
(`/repo/src/psygnal/_evented_model.py:686-690, 711-715`). -/
def restore (before : Option Bool) (c : Nat) (r : Bool × St) : Bool × St :=
  match before with
  | some w => (r.1, { r.2 with own := setOwn r.2.own c (some w) })
  | none => match r.2.own c with
    | some _ => (r.1, { r.2 with own := setOwn r.2.own c none })
    | none => (false, r.2)

/-- The end of `no_class_attributes`, when it changed something (`/repo/src/psygnal/_evented_model.py:102-104`). -/
def unpatch (r : Bool × St) : Bool × St := (r.1, { r.2 with attr := 0 })

/-- Running a program (`/repo/src/psygnal/_evented_model.py:90-104, 682-690, 707-715`). -/
def exec (bases : Bases) : Body → St → Bool × St
  | .ret, s => (true, s)
  | .raise, s => (false, s)
  | .make k, s => exec bases k { s with log := s.log ++ [.made s.attr] }
  | .read c k, s => exec bases (k (lookup bases s.own c)) { s with log := s.log ++ [.read c (lookup bases s.own c)] }
  | .setAttr v k, s => exec bases k { s with attr := v }
  | .setCfg c v k, s => exec bases k { s with own := setOwn s.own c v }
  | .importPySide k, s => exec bases k { s with pyside := true }
  | .noAttrs inner k, s =>
    let r := if s.pyside then unpatch (exec bases inner { s with attr := 1 }) else exec bases inner s
    exec bases (k r.1) r.2
  | .enums c v inner k, s =>
    let r := restore (lookup bases s.own c) c (exec bases inner { s with own := setOwn s.own c (some v) })
    exec bases (k r.1) r.2

end Psygnal.Temp
