/- Model of the nested dictionaries MD_dict and RCParamDict of skbeam/core/utils.py. -/
import Verif.Np

namespace Verif.Dicts
open Verif

/-- A key segment (a string without '.'). -/
abbrev Seg := List Char
/-- A key as the list of its '.'-separated segments. -/
abbrev Path := List Seg

/-- `key.split('.')`.  `RCParamDict` peels segments with `key.split('.', 1)` (utils.py:242,263,270), which visits the
same segments one at a time. -/
def splitDot : List Char → Path
  | [] => [[]]
  | '.' :: t => [] :: splitDot t
  | c :: t => match splitDot t with
    | [] => [[c]]
    | s :: r => (c :: s) :: r

/-- `'.'.join(path)`. -/
def joinDot : Path → List Char
  | [] => []
  | [s] => s
  | s :: r => s ++ '.' :: joinDot r

/-- A nested dictionary in insertion order: each entry is a plain value or a nested dictionary (utils.py:105-109,
232-237).  (First-child/next-sibling representation.) -/
inductive Dict (V : Type) where
  | nil : Dict V
  | leaf (k : Seg) (v : V) (rest : Dict V) : Dict V
  | node (k : Seg) (sub : Dict V) (rest : Dict V) : Dict V
  deriving DecidableEq, Repr

variable {V : Type}

/-- `dict[k]` on one level: a plain value, a nested dictionary, or missing. -/
def find : Dict V → Seg → Option (V ⊕ Dict V)
  | .nil, _ => none
  | .leaf k' v r, k => if k' = k then some (.inl v) else find r k
  | .node k' s r, k => if k' = k then some (.inr s) else find r k

/-- `dict[k] = x` on one level (an existing key keeps its position). -/
def put : Dict V → Seg → V ⊕ Dict V → Dict V
  | .nil, k, .inl v => .leaf k v .nil
  | .nil, k, .inr s => .node k s .nil
  | .leaf k' v r, k, x =>
    if k' = k then (match x with | .inl v' => .leaf k v' r | .inr s => .node k s r) else .leaf k' v (put r k x)
  | .node k' s r, k, x =>
    if k' = k then (match x with | .inl v' => .leaf k v' r | .inr s' => .node k s' r) else .node k' s (put r k x)

/-- `del dict[k]` on one level (k present). -/
def erase : Dict V → Seg → Dict V
  | .nil, _ => .nil
  | .leaf k' v r, k => if k' = k then r else .leaf k' v (erase r k)
  | .node k' s r, k => if k' = k then r else .node k' s (erase r k)

/-! ### RCParamDict -/

/-- `RCParamDict.__setitem__`, utils.py:240-259: new contents and outcome.  The validator test (256) looks up a
`defaultdict` whose entries are functions, hence is always true and omitted.  Plain values are opaque (not
RCParamDict instances). The empty path does not occur (`split` never returns an empty list). -/
def rcSet : Dict V → Path → V → Dict V × Py Unit
  | d, [], _ => (d, .ok ())
  | d, [k], v => (put d k (.inl v), .ok ())
  | d, k :: k2 :: rest, v =>
    match find d k with
    | none =>
      let r := rcSet .nil (k2 :: rest) v
      (put d k (.inr r.1), r.2)
    | some (.inl _) => (d, .error .keyError)
    | some (.inr sub) =>
      let r := rcSet sub (k2 :: rest) v
      (put d k (.inr r.1), r.2)

/-- `RCParamDict.__getitem__`, utils.py:261-267.  Indexing a plain (non-container) value raises TypeError. -/
def rcGet : Dict V → Path → Py (V ⊕ Dict V)
  | _, [] => .error .keyError
  | d, [k] => match find d k with | none => .error .keyError | some x => .ok x
  | d, k :: k2 :: rest =>
    match find d k with
    | none => .error .keyError
    | some (.inl _) => .error .typeError
    | some (.inr sub) => rcGet sub (k2 :: rest)

/-- `RCParamDict.__delitem__`, utils.py:269-274.  A plain value has no `__delitem__`. -/
def rcDel : Dict V → Path → Dict V × Py Unit
  | d, [] => (d, .error .keyError)
  | d, [k] => match find d k with | none => (d, .error .keyError) | some _ => (erase d k, .ok ())
  | d, k :: k2 :: rest =>
    match find d k with
    | none => (d, .error .keyError)
    | some (.inl _) => (d, .error .attributeError)
    | some (.inr sub) =>
      let r := rcDel sub (k2 :: rest)
      (put d k (.inr r.1), r.2)

/-- `_iter_helper` (both classes), utils.py:175-184, 282-301: the paths of the leaves in order. -/
def leaves : Dict V → List Path
  | .nil => []
  | .leaf k _ r => [k] :: leaves r
  | .node k s r => (leaves s).map (k :: ·) ++ leaves r

/-- `iter(d)`: the joined key strings, utils.py:171-172, 279-280. -/
def iterKeys (d : Dict V) : List (List Char) := (leaves d).map joinDot

/-- `len(d)`, utils.py:168-169, 276-277. -/
def len (d : Dict V) : ℕ := (iterKeys d).length

/-- `key in d` for RCParamDict (inherited `Mapping.__contains__`: KeyError means False, other exceptions escape). -/
def rcContains (d : Dict V) (p : Path) : Py Bool :=
  match rcGet d p with
  | .ok _ => .ok true
  | .error .keyError => .ok false
  | .error e => .error e

/-- Operations on an RCParamDict, with string keys. -/
inductive RcOp (V : Type) where
  | set (key : List Char) (v : V)
  | del (key : List Char)
  | get (key : List Char)

/-- One operation. -/
def rcStep (d : Dict V) : RcOp V → Dict V
  | .set key v => (rcSet d (splitDot key) v).1
  | .del key => (rcDel d (splitDot key)).1
  | .get _ => d

/-- A history from the empty dictionary (`__init__`, utils.py:232-237). -/
def rcRun (ops : List (RcOp V)) : Dict V := ops.foldl rcStep .nil

/-! ### MD_dict -/

/-- Atoms of metadata values: text, None, or any other non-indexable object. -/
inductive Item where
  | text (s : String) | pyNone | obj (n : ℤ)
  deriving DecidableEq, Repr

/-- A metadata value: an atom, a list/tuple of atoms, or a mapping (of which only "has no key 1" matters). -/
inductive Val where
  | atom (a : Item) | seq (l : List Item) | mapping
  deriving DecidableEq, Repr

/-- `md_value = namedtuple('md_value', ['value', 'units'])`, utils.py:56. -/
structure Md where
  value : Val
  units : Item
  deriving DecidableEq, Repr

/-- What the caller assigns: an `md_value` or something else. -/
inductive In where
  | md (m : Md) | val (v : Val)
  deriving DecidableEq, Repr

/-- The value part of `MD_dict.__setitem__`, utils.py:119-139.  Only TypeError is caught, so `val[1]` on a too short
sequence (IndexError) or on a mapping without key 1 (KeyError) escapes. The stray `print("here")` is omitted. -/
def normalise : In → Py Md
  | .md m => .ok m
  | .val (.atom (.text s)) => .ok ⟨.atom (.text s), .text "text"⟩
  | .val (.atom a) => .ok ⟨.atom a, .pyNone⟩
  | .val .mapping => .error .keyError
  | .val (.seq l) =>
    match l with
    | [] => .error .indexError
    | [_] => .error .indexError
    | [a, .text u] => .ok ⟨.atom a, .text u⟩
    | [a, .pyNone] => .ok ⟨.atom a, .pyNone⟩
    | l => .ok ⟨.seq l, .pyNone⟩

/-- The branch walk shared by `__setitem__` (108-116) and `__getitem__` (144-153), followed by `act` on the
dictionary reached: `tmp[k]._dict` raises for a missing key *and for a leaf*, and the bare `except` then stores a
fresh empty branch; the KeyError for "leaf node as a branch" is therefore unreachable. -/
def mdWalk (act : Dict Md → Dict Md) : Dict Md → Path → Dict Md
  | d, [] => act d
  | d, k :: rest =>
    match find d k with
    | some (.inr sub) => put d k (.inr (mdWalk act sub rest))
    | _ => put d k (.inr (mdWalk act .nil rest))

/-- `MD_dict.__setitem__`, utils.py:105-139: the branches are created before the value is examined. -/
def mdSet (d : Dict Md) (p : Path) (x : In) : Dict Md × Py Unit :=
  match p.getLast? with
  | none => (d, .ok ())
  | some k =>
    match normalise x with
    | .ok m => (mdWalk (fun t => put t k (.inl m)) d p.dropLast, .ok ())
    | .error e => (mdWalk id d p.dropLast, .error e)

/-- The dictionary reached by the walk (in the contents after the walk). -/
def mdReach : Dict Md → Path → Dict Md
  | d, [] => d
  | d, k :: rest =>
    match find d k with
    | some (.inr sub) => mdReach sub rest
    | _ => .nil

/-- `MD_dict.__getitem__`, utils.py:141-155: new contents and the result (`none` = Python None). -/
def mdGet (d : Dict Md) (p : Path) : Dict Md × Option (Md ⊕ Dict Md) :=
  match p.getLast? with
  | none => (d, none)
  | some k => (mdWalk id d p.dropLast, find (mdReach d p.dropLast) k)

/-- `MD_dict.__delitem__`, utils.py:157-166 (a leaf has no attribute `_dict`). -/
def mdDel : Dict Md → Path → Dict Md × Py Unit
  | d, [] => (d, .error .keyError)
  | d, [k] => match find d k with | none => (d, .error .keyError) | some _ => (erase d k, .ok ())
  | d, k :: k2 :: rest =>
    match find d k with
    | none => (d, .error .keyError)
    | some (.inl _) => (d, .error .attributeError)
    | some (.inr sub) =>
      let r := mdDel sub (k2 :: rest)
      (put d k (.inr r.1), r.2)

/-- The outcome of `__getitem__` as seen by callers: no branch of utils.py:141-155 raises (the KeyError at 153 is
unreachable, `dict.get` does not raise). -/
def mdGetPy (d : Dict Md) (p : Path) : Dict Md × Py (Option (Md ⊕ Dict Md)) := ((mdGet d p).1, .ok (mdGet d p).2)

/-- `key in md` (inherited `Mapping.__contains__`): True unless `__getitem__` raises KeyError. -/
def mdContains (d : Dict Md) (p : Path) : Dict Md × Bool :=
  ((mdGetPy d p).1, match (mdGetPy d p).2 with | .error .keyError => false | _ => true)

/-- `md.setdefault(key, default)` (inherited `MutableMapping.setdefault`): stores only if `__getitem__` raises
KeyError. -/
def mdSetdefault (d : Dict Md) (p : Path) (dflt : In) : Dict Md :=
  match (mdGetPy d p).2 with
  | .error .keyError => (mdSet (mdGetPy d p).1 p dflt).1
  | _ => (mdGetPy d p).1

/-- `md.pop(key, default)` (inherited `MutableMapping.pop`): the default is used only if `__getitem__` raises
KeyError; otherwise `del self[key]`. -/
def mdPop (d : Dict Md) (p : Path) (dflt : Md) : Dict Md × Py (Option (Md ⊕ Dict Md)) :=
  let g := mdGetPy d p
  match g.2 with
  | .error .keyError => (g.1, .ok (some (.inl dflt)))
  | .error e => (g.1, .error e)
  | .ok v =>
    let r := mdDel g.1 p
    (r.1, r.2.map (fun _ => v))

end Verif.Dicts
