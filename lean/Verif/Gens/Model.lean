/- Generators with shared mutable state: `lazy_one_time`, `lazy_two_time` (skbeam/core/correlation.py) and `lazy_dpc`
(skbeam/core/dpc.py) run side by side, in any order, from fresh or from handed-back states.  The arrays of a state live
in a heap; the state yielded to the caller is a reference to them (and for `lazy_two_time` a private time counter). -/
import Verif.Corr.TwoModel
import Verif.Dpc.Model

namespace Verif.Gens
open Verif

/-- What one `next()` does to the shared arrays of a state and to the private part of the named tuple. -/
structure Machine where
  Shared : Type
  Priv : Type
  Img : Type
  Out : Type
  adv : Shared → Priv → Img → Shared × Except PyErr (Priv × Out)

/-- A generator object: where its arrays are, its private part, and whether it can still be advanced. -/
structure Gen (M : Machine) where
  addr : ℕ
  priv : M.Priv
  alive : Bool

/-- All arrays and all generator objects of the process. -/
structure World (M : Machine) where
  heap : List M.Shared
  gens : List (Gen M)

/-- What the caller can do: start a generator without a state, start one with a state they hold (array address and private
part), or advance a generator by an image. -/
inductive Op (M : Machine) where
  | start (s : M.Shared) (p : M.Priv)
  | resume (addr : ℕ) (p : M.Priv)
  | next (g : ℕ) (im : M.Img)

/-- What an advance gives: a yielded value with the private part of the yielded state, an exception, or StopIteration from a
generator that has already ended by an exception (Python language semantics). -/
inductive Ev (M : Machine) where
  | out (o : M.Out) (p : M.Priv)
  | raised (e : PyErr)
  | stopped

/-- One action of the caller.  A generator started without a state allocates new arrays (correlation.py 324-325, 573-574;
dpc.py 425-426; done at the first `next()` in Python, which makes no difference); one started with a state uses the arrays of
that state (correlation.py 327, 576; dpc.py 434-452) and changes them in place. -/
def World.step {M : Machine} (w : World M) : Op M → World M × Option (ℕ × Ev M)
  | .start s p => (⟨w.heap ++ [s], w.gens ++ [⟨w.heap.length, p, true⟩]⟩, none)
  | .resume a p => (⟨w.heap, w.gens ++ [⟨a, p, true⟩]⟩, none)
  | .next g im =>
    match w.gens[g]? with
    | none => (w, none)
    | some G =>
      if G.alive = false then (w, some (g, .stopped))
      else
        match w.heap[G.addr]? with
        | none => (w, none)
        | some s =>
          match M.adv s G.priv im with
          | (s', .error e) => (⟨w.heap.set G.addr s', w.gens.set g { G with alive := false }⟩, some (g, .raised e))
          | (s', .ok (p', o)) => (⟨w.heap.set G.addr s', w.gens.set g { G with priv := p' }⟩, some (g, .out o p'))

/-- A history: the world reached and everything the caller was given, in order, with the generator it came from. -/
def World.run {M : Machine} : World M → List (Op M) → World M × List (ℕ × Ev M)
  | w, [] => (w, [])
  | w, op :: ops =>
    let r := w.step op
    let r' := r.1.run ops
    (r'.1, r.2.toList ++ r'.2)

/-! ### The three generators -/

/-- The constants in the state of a correlation. -/
structure Conf where
  c : Corr.Cfg
  pixels : List ℕ
  lags : List ℕ

/-- correlation.py 334 (579) has been executed when the assignment of the pixels (337, 587) raises: the cursor of level 0
has moved. -/
def bump (n : ℕ) (r : Corr.Ring Corr.Frame) : Corr.Ring Corr.Frame := { r with cur := Corr.put1 r.cur 0 ((1 + r.cur 0) % n) }

/-- `lazy_one_time`, correlation.py 259-410.  All of the state is shared.  Simplification: a state is handed back together
with the `num_levels` and `num_bufs` it was made with. -/
def oneTime : Machine where
  Shared := Conf × Corr.St
  Priv := Unit
  Img := List (Option ℚ)
  Out := Corr.Res
  adv := fun s _ im =>
    match Corr.select s.1.pixels im with
    | .error e => ((s.1, (bump s.1.c.n s.2.1, s.2.2)), .error e)
    | .ok x =>
      let s' := Corr.step s.1.c s.2 x
      ((s.1, s'), .ok ((), Corr.result s.1.c s.1.lags s'))

/-- `lazy_two_time`, correlation.py 502-656.  `current_img_time` belongs to the named tuple (line 584), everything else is
shared; `count_level[0]` has been incremented (581) when the assignment of the pixels raises.  `junk` stands for the arrays
left behind by an IndexError inside `_two_time_process`. -/
def twoTime (nf : ℕ) (junk : Conf × Corr.TSt → Conf × Corr.TSt) : Machine where
  Shared := Conf × Corr.TSt
  Priv := ℕ
  Img := List (Option ℚ)
  Out := ℕ → ℕ → ℕ → Option ℚ
  adv := fun s t im =>
    match Corr.select s.1.pixels im with
    | .error e => ((s.1, (bump s.1.c.n s.2.1, { s.2.2 with count := Corr.put1 s.2.2.count 0 (s.2.2.count 0 + 1) })), .error e)
    | .ok x =>
      let s' := Corr.step2 s.1.c s.1.lags nf (s.2.1, { s.2.2 with time := t }) x
      if s'.2.err then (junk (s.1, s'), .error .indexError) else ((s.1, s'), .ok (s'.2.time, s'.2.g2))

/-- `lazy_dpc`, dpc.py 433-453.  All of the state is shared; nothing has been changed when `np.unravel_index` raises (434). -/
def dpc {α ι : Type} (fit : ι → (α × α) × (α × α)) (rows cols : ℕ) : Machine where
  Shared := Dpc.State α
  Priv := Unit
  Img := ι
  Out := Dpc.State α
  adv := fun s _ im =>
    match Dpc.step fit rows cols s im with
    | .error e => (s, .error e)
    | .ok s' => (s', .ok ((), s'))

end Verif.Gens
