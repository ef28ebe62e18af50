/-!
# Python call signatures and `_acceptable_posarg_range`

Model of `/repo/src/psygnal/_signal.py:1606-1672` (and of the part of `inspect.Signature.bind`
that matters for calls with positional arguments only).
-/
namespace Psygnal

/-- The kinds of an `inspect.Parameter`; table in `/repo/src/psygnal/_signal.py:1607-1615`. -/
inductive Kind where
  | posOnly | posOrKw | varPos | kwOnly | varKw
  deriving DecidableEq, Repr

/-- One parameter of a signature: its kind and whether it has a default.
Models `inspect.Parameter` as used in `/repo/src/psygnal/_signal.py:1658-1671`.
Names, annotations and the default's value are dropped. -/
structure Param where
  kind : Kind
  hasDefault : Bool
  deriving DecidableEq, Repr

/-- `inspect.Signature`: the ordered parameters (`/repo/src/psygnal/_signal.py:1658`). -/
abbrev PySig := List Param

/-- Loop state of `_acceptable_posarg_range` (`/repo/src/psygnal/_signal.py:1654-1671`):
the `for` loop over the parameters with accumulators `required`, `optional`,
`posargs_unlimited`; `none` is the `ValueError` of line 1671
(`forbid_required_kwarg` has its default value `True`; both call sites use it). -/
def posargLoop : PySig → Nat → Nat → Bool → Option (Nat × Option Nat)
  | [], req, opt, unl => some (req, if unl then none else some (req + opt))
  | p :: ps, req, opt, unl =>
    match p.kind with
    | .posOnly | .posOrKw =>
      if p.hasDefault then posargLoop ps req (opt + 1) unl else posargLoop ps (req + 1) opt unl
    | .varPos => posargLoop ps req opt true
    | .kwOnly => if p.hasDefault then posargLoop ps req opt unl else none
    | .varKw => posargLoop ps req opt unl

/-- `_acceptable_posarg_range(sig)` for a real signature object
(`/repo/src/psygnal/_signal.py:1624-1672`); the string form (Qt signals): `QtSlot.rangeQt`. -/
def posargRange (sig : PySig) : Option (Nat × Option Nat) := posargLoop sig 0 0 false

/-- Specification: does `f(a₁, …, a_k)` (k positional arguments, no keywords) bind to the
parameters?  A direct left-to-right transcription of Python's binding rule (the one
`inspect.Signature.bind` implements; used by `/repo/src/psygnal/_signal.py:1176` for emission
and by the Python interpreter for every callback call). -/
def bindsPos : PySig → Nat → Bool
  | [], k => k == 0
  | p :: ps, k =>
    match p.kind with
    | .posOnly | .posOrKw =>
      match k with
      | 0 => p.hasDefault && bindsPos ps 0
      | k + 1 => bindsPos ps k
    | .varPos => bindsPos ps 0
    | .kwOnly => p.hasDefault && bindsPos ps k
    | .varKw => bindsPos ps k

/-- Phase of a parameter kind in a legal Python signature (`/repo/src/psygnal/_signal.py:1607-1615`). -/
def Kind.phase : Kind → Nat
  | .posOnly => 0 | .posOrKw => 1 | .varPos => 2 | .kwOnly => 3 | .varKw => 4

/-- Is the parameter one that takes a positional argument (`/repo/src/psygnal/_signal.py:1657`)? -/
def Param.isPos (p : Param) : Bool := p.kind == .posOnly || p.kind == .posOrKw

/-- The well-formedness that Python itself enforces on every signature
(`inspect.Signature.__init__`; signatures reach `/repo/src/psygnal/_signal.py:1658` only so): kinds come in order, at most one `*args` / `**kw`,
no positional parameter without default after one with default. -/
def WFSig : PySig → Prop
  | [] => True
  | p :: ps =>
    (∀ q ∈ ps, p.kind.phase ≤ q.kind.phase) ∧
    (p.kind = .varPos → ∀ q ∈ ps, q.kind ≠ .varPos) ∧
    (p.kind = .varKw → ∀ q ∈ ps, q.kind ≠ .varKw) ∧
    (p.isPos → p.hasDefault → ∀ q ∈ ps, q.isPos → q.hasDefault) ∧
    WFSig ps

/-- `_build_signature(*types)` (`/repo/src/psygnal/_signal.py:1597-1602`): one positional-only
parameter without default per type. -/
def buildSig (n : Nat) : PySig := List.replicate n ⟨.posOnly, false⟩

/-- `inspect.signature(functools.partial(f, *bound))`: the first `n` positional parameters are
gone (binding them raises `ValueError` when there are not enough).
`functools.partial` support: `/repo/src/psygnal/_signal.py:1073-1077`, `_weak_callback.py:122-125`.
Simplification: keyword arguments of the partial are not modelled. -/
def dropBound : PySig → Nat → Option PySig
  | sig, 0 => some sig
  | [], _ + 1 => none
  | p :: ps, n + 1 =>
    match p.kind with
    | .posOnly | .posOrKw => dropBound ps n
    | .varPos => some (p :: ps)
    | .kwOnly | .varKw => none

end Psygnal
