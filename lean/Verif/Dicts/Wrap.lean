/- C247: several MD_dicts, made with and without a dictionary of the caller (skbeam/core/utils.py 92-165). -/
import Verif.Dicts.Props

namespace Verif.Dicts.Wrap
open Verif Verif.Dicts

variable {P : Type}

/-! ### Model -/

/-- What the dictionary of an MD_dict holds besides nested MD_dicts: md_values and, if it was filled by the caller, anything else (P), among it plain
nested dictionaries.  Neither has an attribute `_dict`. -/
abbrev Entry (P : Type) := Md ⊕ P

/-- The walk of `__setitem__` and `__getitem__`, utils.py 107-116, 143-152: as `mdWalk`, for dictionaries that hold any entries.  What is not an
MD_dict is replaced by a new empty one (bare `except`). -/
def walk (act : Dict (Entry P) → Dict (Entry P)) : Dict (Entry P) → Path → Dict (Entry P)
  | d, [] => act d
  | d, k :: rest =>
    match find d k with
    | some (.inr sub) => put d k (.inr (walk act sub rest))
    | _ => put d k (.inr (walk act .nil rest))

/-- `__setitem__`, utils.py 105-139. -/
def set (d : Dict (Entry P)) (p : Path) (x : In) : Dict (Entry P) × Py Unit :=
  match p.getLast? with
  | none => (d, .ok ())
  | some k =>
    match normalise x with
    | .ok m => (walk (fun t => put t k (.inl (.inl m))) d p.dropLast, .ok ())
    | .error e => (walk id d p.dropLast, .error e)

/-- The dictionary reached by the walk. -/
def reach : Dict (Entry P) → Path → Dict (Entry P)
  | d, [] => d
  | d, k :: rest =>
    match find d k with
    | some (.inr sub) => reach sub rest
    | _ => .nil

/-- `__getitem__`, utils.py 141-155: new contents and the result (none is Python's None). -/
def get (d : Dict (Entry P)) (p : Path) : Dict (Entry P) × Option (Entry P ⊕ Dict (Entry P)) :=
  match p.getLast? with
  | none => (d, none)
  | some k => (walk id d p.dropLast, find (reach d p.dropLast) k)

/-- `__delitem__`, utils.py 157-165. -/
def del : Dict (Entry P) → Path → Dict (Entry P) × Py Unit
  | d, [] => (d, .error .keyError)
  | d, [k] => match find d k with | none => (d, .error .keyError) | some _ => (erase d k, .ok ())
  | d, k :: k2 :: rest =>
    match find d k with
    | none => (d, .error .keyError)
    | some (.inl _) => (d, .error .attributeError)
    | some (.inr sub) =>
      let r := del sub (k2 :: rest)
      (put d k (.inr r.1), r.2)

/-- One call on an MD_dict. -/
inductive Call where
  | set (key : List Char) (x : In)
  | get (key : List Char)
  | del (key : List Char)

/-- What a call does to the dictionary behind the object. -/
def Call.run (d : Dict (Entry P)) : Call → Dict (Entry P)
  | .set key x => (Wrap.set d (splitDot key) x).1
  | .get key => (Wrap.get d (splitDot key)).1
  | .del key => (Wrap.del d (splitDot key)).1

/-- The memory: dictionaries, which of them the caller made, and for each MD_dict the dictionary it holds as `_dict`. -/
structure World (P : Type) where
  heap : List (Dict (Entry P))
  dicts : List ℕ
  objs : List ℕ

/-- What the caller does. -/
inductive Act (P : Type) where
  /-- make a dictionary with these contents -/
  | dict (c : Dict (Entry P))
  /-- store into an own dictionary, `d[k] = v` -/
  | store (n : ℕ) (k : Seg) (v : Entry P)
  /-- `MD_dict()` -/
  | fresh
  /-- `MD_dict(d)`, d the n-th dictionary the caller made -/
  | over (n : ℕ)
  /-- a call on the i-th MD_dict -/
  | call (i : ℕ) (c : Call)

/-- One action.  `__init__`, utils.py 92-98: without argument a new dictionary is made at every call (not one for all calls); a given dictionary is kept,
not copied. -/
def step (w : World P) : Act P → World P
  | .dict c => { w with heap := w.heap ++ [c], dicts := w.dicts ++ [w.heap.length] }
  | .store n k v => match w.dicts[n]? with
    | some a => { w with heap := w.heap.modify a (fun d => put d k (.inl v)) }
    | none => w
  | .fresh => { w with heap := w.heap ++ [.nil], objs := w.objs ++ [w.heap.length] }
  | .over n => match w.dicts[n]? with
    | some a => { w with objs := w.objs ++ [a] }
    | none => w
  | .call i c => match w.objs[i]? with
    | some a => { w with heap := w.heap.modify a (fun d => c.run d) }
    | none => w

def run (w : World P) (acts : List (Act P)) : World P := acts.foldl step w

/-- Before anything. -/
def start : World P := ⟨[], [], []⟩

/-- Contents of the i-th MD_dict. -/
def contents (w : World P) (i : ℕ) : Option (Dict (Entry P)) := w.objs[i]?.bind (w.heap[·]?)

/-- Contents of the n-th dictionary of the caller. -/
def dictContents (w : World P) (n : ℕ) : Option (Dict (Entry P)) := w.dicts[n]?.bind (w.heap[·]?)

/-! ### Specification -/

/-- The calls on the i-th MD_dict, in order. -/
def Spec.own (i : ℕ) (acts : List (Act P)) : List Call := acts.filterMap (fun a => match a with | .call j c => if j = i then some c else none | _ => none)

/-! ### Invariant -/

/-- All references are valid. -/
def Ok (w : World P) : Prop := (∀ a ∈ w.dicts, a < w.heap.length) ∧ (∀ a ∈ w.objs, a < w.heap.length)

theorem ok_step (w : World P) (h : Ok w) (a : Act P) : Ok (step w a) := by
  obtain ⟨h1, h2⟩ := h
  cases a with
  | dict c =>
    constructor
    · intro a ha
      simp only [step, List.mem_append, List.mem_singleton, List.length_append, List.length_singleton] at ha ⊢
      rcases ha with ha | rfl
      · have := h1 a ha; omega
      · omega
    · intro a ha
      simp only [step, List.length_append, List.length_singleton] at ha ⊢
      have := h2 a ha; omega
  | store n k v =>
    simp only [step]
    cases w.dicts[n]? with
    | none => exact ⟨h1, h2⟩
    | some a => exact ⟨by simpa using h1, by simpa using h2⟩
  | fresh =>
    constructor
    · intro a ha
      simp only [step, List.length_append, List.length_singleton] at ha ⊢
      have := h1 a ha; omega
    · intro a ha
      simp only [step, List.mem_append, List.mem_singleton, List.length_append, List.length_singleton] at ha ⊢
      rcases ha with ha | rfl
      · have := h2 a ha; omega
      · omega
  | over n =>
    simp only [step]
    cases hn : w.dicts[n]? with
    | none => exact ⟨h1, h2⟩
    | some a =>
      refine ⟨h1, ?_⟩
      intro b hb
      simp only [List.mem_append, List.mem_singleton] at hb
      rcases hb with hb | rfl
      · exact h2 b hb
      · exact h1 _ (List.mem_of_getElem? hn)
  | call i c =>
    simp only [step]
    cases w.objs[i]? with
    | none => exact ⟨h1, h2⟩
    | some a => exact ⟨by simpa using h1, by simpa using h2⟩

theorem ok_run (acts : List (Act P)) : ∀ w : World P, Ok w → Ok (run w acts) := by
  induction acts with
  | nil => exact fun w h => h
  | cons a t ih => exact fun w h => ih _ (ok_step w h a)

theorem ok_start : Ok (start : World P) := ⟨by simp [start], by simp [start]⟩

/-- Object i holds the dictionary at a, which is neither the caller's nor another object's. -/
def Private (w : World P) (i a : ℕ) : Prop :=
  w.objs[i]? = some a ∧ a ∉ w.dicts ∧ ∀ j, w.objs[j]? = some a → j = i

theorem private_step (w : World P) (hw : Ok w) (i a : ℕ) (h : Private w i a) (act : Act P) : Private (step w act) i a := by
  obtain ⟨h1, h2, h3⟩ := h
  have hi : i < w.objs.length := (List.getElem?_eq_some_iff.1 h1).1
  have ha : a < w.heap.length := hw.2 a (List.mem_of_getElem? h1)
  have grow : ∀ b, b ≠ a → ((w.objs ++ [b])[i]? = some a ∧ ∀ j, (w.objs ++ [b])[j]? = some a → j = i) := by
    intro b hb
    refine ⟨by rw [List.getElem?_append_left hi]; exact h1, ?_⟩
    intro j hj
    by_cases hjl : j < w.objs.length
    · rw [List.getElem?_append_left hjl] at hj
      exact h3 j hj
    · rw [List.getElem?_append_right (by omega)] at hj
      have := List.mem_of_getElem? hj
      rw [List.mem_singleton] at this
      exact absurd this.symm hb
  cases act with
  | dict c =>
    refine ⟨h1, ?_, h3⟩
    simp only [step, List.mem_append, List.mem_singleton, not_or]
    exact ⟨h2, by omega⟩
  | store n k v =>
    simp only [step]
    cases w.dicts[n]? with
    | none => exact ⟨h1, h2, h3⟩
    | some b => exact ⟨h1, h2, h3⟩
  | fresh => exact ⟨(grow _ (by omega)).1, h2, (grow _ (by omega)).2⟩
  | over n =>
    simp only [step]
    cases hn : w.dicts[n]? with
    | none => exact ⟨h1, h2, h3⟩
    | some b =>
      have hb : b ≠ a := by rintro rfl; exact h2 (List.mem_of_getElem? hn)
      exact ⟨(grow b hb).1, h2, (grow b hb).2⟩
  | call j c =>
    simp only [step]
    cases w.objs[j]? with
    | none => exact ⟨h1, h2, h3⟩
    | some b => exact ⟨h1, h2, h3⟩

/-- What one action does to the dictionary of a private object. -/
theorem private_contents (w : World P) (hw : Ok w) (i a : ℕ) (h : Private w i a) (act : Act P) :
    (step w act).heap[a]? = (w.heap[a]?).map (fun d => (Spec.own i [act]).foldl Call.run d) := by
  obtain ⟨h1, h2, h3⟩ := h
  have ha : a < w.heap.length := hw.2 a (List.mem_of_getElem? h1)
  cases act with
  | dict c => simp [step, Spec.own, List.getElem?_append_left ha]
  | store n k v =>
    cases hn : w.dicts[n]? with
    | none => simp [step, hn, Spec.own]
    | some b =>
      have hb : b ≠ a := by rintro rfl; exact h2 (List.mem_of_getElem? hn)
      simp [step, hn, Spec.own, hb]
  | fresh => simp [step, Spec.own, List.getElem?_append_left ha]
  | over n => cases hn : w.dicts[n]? <;> simp [step, hn, Spec.own]
  | call j c =>
    cases hn : w.objs[j]? with
    | none =>
      have hj : j ≠ i := by rintro rfl; rw [hn] at h1; exact absurd h1 (by simp)
      simp [step, hn, Spec.own, hj]
    | some b =>
      by_cases hj : j = i
      · subst hj
        rw [hn] at h1
        obtain rfl := Option.some.inj h1
        simp [step, hn, Spec.own]
      · have hb : b ≠ a := by rintro rfl; exact hj (h3 j hn)
        simp [step, hn, Spec.own, hj, hb]

theorem private_run (acts : List (Act P)) (i a : ℕ) : ∀ w : World P, Ok w → Private w i a →
    Private (run w acts) i a ∧ (run w acts).heap[a]? = (w.heap[a]?).map (fun d => (Spec.own i acts).foldl Call.run d) := by
  induction acts with
  | nil => intro w _ h; exact ⟨h, by simp [run, Spec.own]⟩
  | cons x t ih =>
    intro w hw h
    obtain ⟨p, e⟩ := ih (step w x) (ok_step w hw x) (private_step w hw i a h x)
    refine ⟨p, ?_⟩
    have e2 := private_contents w hw i a h x
    have hsplit : Spec.own i (x :: t) = Spec.own i [x] ++ Spec.own i t := by
      unfold Spec.own
      rw [← List.filterMap_append]
      rfl
    change (run (step w x) t).heap[a]? = _
    rw [e, e2, hsplit]
    cases w.heap[a]? <;> simp

/-- C247: an `MD_dict()` starts empty and holds at any time what its own calls have made of it, whatever was done before and is done in between to
other MD_dicts and dictionaries: no two of them share a dictionary. -/
theorem C247_fresh_separate (before after : List (Act P)) :
    let w := run start before
    contents (run w (.fresh :: after)) w.objs.length = some ((Spec.own w.objs.length after).foldl Call.run .nil) := by
  intro w
  have hw : Ok w := ok_run before _ ok_start
  have hp : Private (step w .fresh) w.objs.length w.heap.length := by
    refine ⟨by simp [step], ?_, ?_⟩
    · intro hc
      have := hw.1 _ hc
      omega
    · intro j hj
      by_cases hjl : j < w.objs.length
      · simp only [step] at hj
        rw [List.getElem?_append_left hjl] at hj
        have := hw.2 _ (List.mem_of_getElem? hj)
        omega
      · have : j < (w.objs ++ [w.heap.length]).length := (List.getElem?_eq_some_iff.1 hj).1
        simp at this
        omega
  obtain ⟨p, e⟩ := private_run after _ _ _ (ok_step w hw .fresh) hp
  unfold contents
  rw [show run w (.fresh :: after) = run (step w .fresh) after from rfl, p.1, Option.bind_some, e]
  simp [step]

theorem refs_step (w : World P) (act : Act P) : (∀ (i a : ℕ), w.objs[i]? = some a → (step w act).objs[i]? = some a) ∧
    (∀ (n a : ℕ), w.dicts[n]? = some a → (step w act).dicts[n]? = some a) := by
  have grow : ∀ (l : List ℕ) (b i a : ℕ), l[i]? = some a → (l ++ [b])[i]? = some a := by
    intro l b i a h
    rw [List.getElem?_append_left (List.getElem?_eq_some_iff.1 h).1]
    exact h
  cases act with
  | dict c => exact ⟨fun i a h => h, fun n a h => grow _ _ _ _ h⟩
  | store n k v => simp only [step]; cases w.dicts[n]? <;> exact ⟨fun i a h => h, fun n a h => h⟩
  | fresh => exact ⟨fun i a h => grow _ _ _ _ h, fun n a h => h⟩
  | over n => simp only [step]; cases w.dicts[n]? <;> [exact ⟨fun i a h => h, fun n a h => h⟩; exact ⟨fun i a h => grow _ _ _ _ h, fun n a h => h⟩]
  | call j c => simp only [step]; cases w.objs[j]? <;> exact ⟨fun i a h => h, fun n a h => h⟩

theorem refs_run (acts : List (Act P)) : ∀ w : World P, (∀ (i a : ℕ), w.objs[i]? = some a → (run w acts).objs[i]? = some a) ∧
    (∀ (n a : ℕ), w.dicts[n]? = some a → (run w acts).dicts[n]? = some a) := by
  induction acts with
  | nil => exact fun w => ⟨fun _ _ h => h, fun _ _ h => h⟩
  | cons x t ih =>
    intro w
    exact ⟨fun i a h => (ih (step w x)).1 i a ((refs_step w x).1 i a h), fun n a h => (ih (step w x)).2 n a ((refs_step w x).2 n a h)⟩

/-- C247: an MD_dict made over a dictionary of the caller is a view of it: at any later time, whatever was done through the MD_dict, through other
MD_dicts over the same dictionary or to the dictionary itself, both hold the same. -/
theorem C247_view (before after : List (Act P)) (n : ℕ) (c : Dict (Entry P)) (h : dictContents (run start before) n = some c) :
    let w := run start before
    let w' := run w (.over n :: after)
    contents w' w.objs.length = dictContents w' n ∧ contents (step w (.over n)) w.objs.length = some c := by
  intro w w'
  unfold dictContents at h
  cases hn : (run start before).dicts[n]? with
  | none => rw [hn] at h; exact absurd h (by simp)
  | some a =>
    rw [hn, Option.bind_some] at h
    have hs : step w (.over n) = { w with objs := w.objs ++ [a] } := by simp only [step]; rw [hn]
    have ho : (step w (.over n)).objs[w.objs.length]? = some a := by rw [hs]; simp
    have hd : (step w (.over n)).dicts[n]? = some a := by rw [hs]; exact hn
    constructor
    · have r := refs_run after (step w (.over n))
      unfold contents dictContents
      change (run (step w (.over n)) after).objs[w.objs.length]?.bind _ = (run (step w (.over n)) after).dicts[n]?.bind _
      rw [r.1 _ _ ho, r.2 _ _ hd]
    · unfold contents
      rw [ho, Option.bind_some, hs]
      exact h

theorem splitDot_simple (k : List Char) (h : '.' ∉ k) : splitDot k = [k] := by
  have := splitDot_joinDot [k] (by simp) (by intro s hs; rw [List.mem_singleton.1 hs]; exact h)
  simpa [joinDot] using this

/-- C247, part that holds: a key without a dot reads the entry as it is in the dictionary and changes nothing. -/
theorem C247_flat_partial (d : Dict (Entry P)) (k : List Char) (h : '.' ∉ k) :
    get d (splitDot k) = (d, find d k) := by
  rw [splitDot_simple k h]
  rfl

/-- C247, refuted: nested plain dictionaries of the given dictionary can not be read and are lost at the first attempt.  For every dictionary, every entry
that is not an MD_dict and every key below it: the read gives None, and afterwards the entry is an empty MD_dict, in the caller's dictionary too. -/
theorem C247_nested_refuted (d : Dict (Entry P)) (k sub : List Char) (hk : '.' ∉ k) (hs : '.' ∉ sub) (p : Entry P) (h : find d k = some (.inl p)) :
    (get d (splitDot (k ++ '.' :: sub))).2 = none ∧ find (get d (splitDot (k ++ '.' :: sub))).1 k = some (.inr .nil) := by
  have e : splitDot (k ++ '.' :: sub) = [k, sub] := by
    have := splitDot_joinDot [k, sub] (by simp) (by
      intro s hs'
      rcases List.mem_cons.1 hs' with rfl | h'
      · exact hk
      · rw [List.mem_singleton.1 h']; exact hs)
    simpa [joinDot] using this
  rw [e]
  simp [get, reach, walk, h, find, find_put]

/-! ### The dictionaries of C14 to C17 -/

/-- A dictionary of md_values only, as filled by assignments. -/
def emb : Dict Md → Dict (Entry P)
  | .nil => .nil
  | .leaf k v r => .leaf k (.inl v) (emb r)
  | .node k s r => .node k (emb s) (emb r)

theorem find_emb (d : Dict Md) (k : Seg) : find (emb d : Dict (Entry P)) k = (find d k).map (Sum.map Sum.inl emb) := by
  induction d with
  | nil => rfl
  | leaf a v r ih => simp only [emb, find]; split_ifs <;> simp [ih]
  | node a s r _ ih => simp only [emb, find]; split_ifs <;> simp [ih]

theorem put_emb (d : Dict Md) (k : Seg) (x : Md ⊕ Dict Md) : put (emb d : Dict (Entry P)) k (Sum.map Sum.inl emb x) = emb (put d k x) := by
  induction d with
  | nil => cases x <;> rfl
  | leaf a v r ih => simp only [emb, put]; split_ifs <;> cases x <;> simp [emb, ← ih]
  | node a s r _ ih => simp only [emb, put]; split_ifs <;> cases x <;> simp [emb, ← ih]

theorem erase_emb (d : Dict Md) (k : Seg) : erase (emb d : Dict (Entry P)) k = emb (erase d k) := by
  induction d with
  | nil => rfl
  | leaf a v r ih => simp only [emb, erase]; split_ifs <;> simp [emb, ih]
  | node a s r _ ih => simp only [emb, erase]; split_ifs <;> simp [emb, ih]

theorem walk_emb (act : Dict Md → Dict Md) (act' : Dict (Entry P) → Dict (Entry P)) (h : ∀ d, act' (emb d) = emb (act d)) (p : Path) :
    ∀ d : Dict Md, walk act' (emb d) p = emb (mdWalk act d p) := by
  induction p with
  | nil => exact h
  | cons k rest ih =>
    intro d
    simp only [walk, mdWalk, find_emb]
    have hn : walk act' (.nil : Dict (Entry P)) rest = emb (mdWalk act .nil rest) := ih .nil
    cases hf : find d k with
    | none => simpa [hn] using put_emb d k (.inr (mdWalk act .nil rest))
    | some x =>
      cases x with
      | inl v => simpa [hn] using put_emb d k (.inr (mdWalk act .nil rest))
      | inr s => simpa [ih s] using put_emb d k (.inr (mdWalk act s rest))

theorem del_emb (p : Path) : ∀ d : Dict Md, (del (emb d : Dict (Entry P)) p).1 = emb (mdDel d p).1 := by
  induction p with
  | nil => exact fun d => rfl
  | cons k rest ih =>
    intro d
    cases rest with
    | nil =>
      simp only [del, mdDel, find_emb]
      cases hf : find d k <;> simp [erase_emb]
    | cons k2 rest =>
      simp only [del, mdDel, find_emb]
      cases hf : find d k with
      | none => simp
      | some x =>
        cases x with
        | inl v => simp
        | inr s => simpa [ih s] using put_emb d k (.inr (mdDel s (k2 :: rest)).1)

/-- The call as an operation of C14 to C17. -/
def Call.op : Call → MdOp
  | .set key x => .set key x
  | .get key => .get key
  | .del key => .del key

theorem run_emb (d : Dict Md) (c : Call) : c.run (emb d : Dict (Entry P)) = emb (mdStep d c.op) := by
  cases c with
  | set key x =>
    simp only [Call.run, Call.op, mdStep, Wrap.set, mdSet]
    cases (splitDot key).getLast? with
    | none => rfl
    | some k =>
      cases normalise x with
      | error e => exact walk_emb id id (fun _ => rfl) _ d
      | ok m => exact walk_emb _ _ (fun t => put_emb t k (.inl m)) _ d
  | get key =>
    simp only [Call.run, Call.op, mdStep, Wrap.get, mdGet]
    cases (splitDot key).getLast? with
    | none => rfl
    | some k => exact walk_emb id id (fun _ => rfl) _ d
  | del key => exact del_emb _ d

theorem runs_emb (cs : List Call) : ∀ d : Dict Md, cs.foldl Call.run (emb d : Dict (Entry P)) = emb ((cs.map Call.op).foldl mdStep d) := by
  induction cs with
  | nil => exact fun d => rfl
  | cons c t ih =>
    intro d
    simp only [List.foldl_cons, List.map_cons, run_emb, ih]

/-- C247: every `MD_dict()` behaves as if it were the only one: it holds what its own calls make of an empty MD_dict, so that C14 to C17 hold for each of
several MD_dicts and any order of the calls on them. -/
theorem C247_as_if_alone (before after : List (Act P)) :
    let w := run start before
    contents (run w (.fresh :: after)) w.objs.length = some (emb (mdRun ((Spec.own w.objs.length after).map Call.op))) := by
  intro w
  have := C247_fresh_separate before after
  rw [this]
  exact congrArg some (runs_emb _ .nil)

/-! ### The hypotheses are met -/

/-- A caller's dictionary {"a": {...}, "b": md_value} (plain dictionary number 7), an MD_dict over it and one without argument: reading "a.x" leaves the
caller with an empty entry, and the second MD_dict does not notice. -/
example :
    let m : Md := ⟨.atom (.obj 3), .pyNone⟩
    let w := run (start : World ℕ) [.dict (.leaf ['a'] (.inr 7) (.leaf ['b'] (.inl m) .nil)), .over 0, .fresh, .call 0 (.get ['a', '.', 'x']), .call 1 (.set ['c'] (.md m))]
    dictContents w 0 = some (.node ['a'] .nil (.leaf ['b'] (.inl m) .nil)) ∧ contents w 0 = dictContents w 0 ∧ contents w 1 = some (.leaf ['c'] (.inl m) .nil) := by
  decide +kernel

end Verif.Dicts.Wrap
