/- C268: laws of emission_line_search (skbeam/core/constants/xrf.py 625-667). -/
import Verif.Consts.Props

namespace Verif.Consts
open Verif Verif.Io

/-- A search result has this line, of this energy, under this symbol. -/
def Spec.Found (out : Dct Text (Dct Text ℚ)) (s k : Text) (v : ℚ) : Prop := ∃ d, get out s = some d ∧ get d k = some v

/-- Elements of the table with the same symbol are the same. -/
def Spec.OneSymbol (t : Dct Key Element) : Prop := ∀ a b ka kb, basicElement t ka = .ok a → basicElement t kb = .ok b → a.sym = b.sym → a = b

theorem mapPy_mem_ok {α β : Type} (f : α → Py β) (l : List α) (r : List β) (h : mapPy f l = .ok r) : ∀ a ∈ l, ∃ b, f a = .ok b := by
  intro a ha
  obtain ⟨i, hi, rfl⟩ := List.getElem_of_mem ha
  obtain ⟨b, _, hb⟩ := (mapPy_length f l r h).2 i hi
  exact ⟨b, hb⟩

/-- A search that returns has found exactly the lines in the window. -/
theorem search_found (x : XrayLib) (t : Dct Key Element) (ht : Spec.OneSymbol t) (E d inc : ℚ) (ks : List Key) (out : Dct Text (Dct Text ℚ))
    (h : emissionLineSearch x t E d inc (some ks) = .ok out) :
    (∀ s k v, Spec.Found out s k v ↔ ∃ key ∈ ks, ∃ e, basicElement t key = .ok e ∧ e.sym = s ∧ Spec.Hit x e E d inc k v) ∧
    (∀ s dd, get out s = some dd → ∃ k v, get dd k = some v) := by
  have hel : ∀ k ∈ ks, ∃ e, basicElement t k = .ok e := by
    unfold emissionLineSearch at h
    simp only [Option.getD_some] at h
    cases hm : mapPy (basicElement t) ks with
    | error e => rw [hm] at h; cases h
    | ok es => exact mapPy_mem_ok _ _ _ hm
  obtain ⟨out', h', h1, h2⟩ := C80_search x t E d inc (some ks) ht hel
  rw [h] at h'
  cases h'
  exact ⟨h1, h2⟩

/-! ## C268 -/

/-- C268: a wider window finds at least the same lines: whatever a search finds, a search whose window contains the first window finds. -/
theorem C268_window (x : XrayLib) (t : Dct Key Element) (ht : Spec.OneSymbol t) (E d E' d' inc : ℚ) (ks : List Key) (out out' : Dct Text (Dct Text ℚ))
    (h : emissionLineSearch x t E d inc (some ks) = .ok out) (h' : emissionLineSearch x t E' d' inc (some ks) = .ok out')
    (hlo : E' - d' ≤ E - d) (hhi : E + d ≤ E' + d') (s k : Text) (v : ℚ) (hf : Spec.Found out s k v) : Spec.Found out' s k v := by
  rw [(search_found x t ht E d inc ks out h).1] at hf
  rw [(search_found x t ht E' d' inc ks out' h').1]
  obtain ⟨key, hk, e, he, hs, hx, h1, h2⟩ := hf
  exact ⟨key, hk, e, he, hs, hx, lt_of_le_of_lt hlo h1, lt_of_lt_of_le h2 hhi⟩

/-- C268: a search over two lists of elements finds what the searches over the two find. -/
theorem C268_append (x : XrayLib) (t : Dct Key Element) (ht : Spec.OneSymbol t) (E d inc : ℚ) (ks ks' : List Key) (out out' both : Dct Text (Dct Text ℚ))
    (h : emissionLineSearch x t E d inc (some ks) = .ok out) (h' : emissionLineSearch x t E d inc (some ks') = .ok out')
    (hb : emissionLineSearch x t E d inc (some (ks ++ ks')) = .ok both) (s k : Text) (v : ℚ) :
    Spec.Found both s k v ↔ Spec.Found out s k v ∨ Spec.Found out' s k v := by
  rw [(search_found x t ht E d inc ks out h).1, (search_found x t ht E d inc ks' out' h').1, (search_found x t ht E d inc _ both hb).1]
  simp only [List.mem_append]
  constructor
  · rintro ⟨key, hk | hk, r⟩
    · exact Or.inl ⟨key, hk, r⟩
    · exact Or.inr ⟨key, hk, r⟩
  · rintro (⟨key, hk, r⟩ | ⟨key, hk, r⟩)
    · exact ⟨key, Or.inl hk, r⟩
    · exact ⟨key, Or.inr hk, r⟩

/-- C268: neither order, repetition nor spelling of the elements matters: lists that name the same elements find the same. -/
theorem C268_spelling (x : XrayLib) (t : Dct Key Element) (ht : Spec.OneSymbol t) (E d inc : ℚ) (ks ks' : List Key) (out out' : Dct Text (Dct Text ℚ))
    (h : emissionLineSearch x t E d inc (some ks) = .ok out) (h' : emissionLineSearch x t E d inc (some ks') = .ok out')
    (hsame : ∀ e, (∃ key ∈ ks, basicElement t key = .ok e) ↔ ∃ key ∈ ks', basicElement t key = .ok e) (s k : Text) (v : ℚ) :
    Spec.Found out s k v ↔ Spec.Found out' s k v := by
  rw [(search_found x t ht E d inc ks out h).1, (search_found x t ht E d inc ks' out' h').1]
  constructor
  · rintro ⟨key, hk, e, he, r⟩
    obtain ⟨key', hk', he'⟩ := (hsame e).1 ⟨key, hk, he⟩
    exact ⟨key', hk', e, he', r⟩
  · rintro ⟨key, hk, e, he, r⟩
    obtain ⟨key', hk', he'⟩ := (hsame e).2 ⟨key, hk, he⟩
    exact ⟨key', hk', e, he', r⟩

/-- C268: an empty window finds nothing, not even an element with no lines. -/
theorem C268_empty (x : XrayLib) (t : Dct Key Element) (ht : Spec.OneSymbol t) (E d inc : ℚ) (ks : List Key) (out : Dct Text (Dct Text ℚ))
    (h : emissionLineSearch x t E d inc (some ks) = .ok out) (hd : d ≤ 0) (s : Text) : get out s = none := by
  obtain ⟨h1, h2⟩ := search_found x t ht E d inc ks out h
  cases hg : get out s with
  | none => rfl
  | some dd =>
    obtain ⟨k, v, hv⟩ := h2 s dd hg
    obtain ⟨_, _, e, _, _, _, a, b⟩ := (h1 s k v).1 ⟨dd, hg, hv⟩
    linarith

/-- C268: an element is found at the energy of each of its lines that the incident beam excites, with any positive window. -/
theorem C268_own (x : XrayLib) (t : Dct Key Element) (ht : Spec.OneSymbol t) (d inc : ℚ) (ks : List Key) (key : Key) (hk : key ∈ ks) (e : Element)
    (he : basicElement t key = .ok e) (n : ℕ) (name : String) (hn : lineName[n]? = some name) (hc : (x.cs e.z n inc).getD 0 ≠ 0) (hd : 0 < d)
    (out : Dct Text (Dct Text ℚ)) (h : emissionLineSearch x t ((x.lineEnergy e.z n).getD 0) d inc (some ks) = .ok out) :
    Spec.Found out e.sym (lower name.toList) ((x.lineEnergy e.z n).getD 0) := by
  rw [(search_found x t ht _ d inc ks out h).1]
  exact ⟨key, hk, e, he, rfl, ⟨n, name, hn, rfl, rfl, hc⟩, by linarith, by linarith⟩

/-- C268: it raises exactly if one of the elements is not in the table. -/
theorem C268_raises (x : XrayLib) (t : Dct Key Element) (ht : Spec.OneSymbol t) (E d inc : ℚ) (ks : List Key) :
    (∃ out, emissionLineSearch x t E d inc (some ks) = .ok out) ↔ ∀ k ∈ ks, ∃ e, basicElement t k = .ok e := by
  constructor
  · rintro ⟨out, h⟩
    unfold emissionLineSearch at h
    simp only [Option.getD_some] at h
    cases hm : mapPy (basicElement t) ks with
    | error e => rw [hm] at h; cases h
    | ok es => exact mapPy_mem_ok _ _ _ hm
  · intro hel
    obtain ⟨out, h, _⟩ := C80_search x t E d inc (some ks) ht hel
    exact ⟨out, h⟩

/-- The table that comes with the library has no symbol twice, so the laws hold for it. -/
theorem C268_table (data : ℤ → List (Option ℚ)) :
    Spec.OneSymbol (table (update [] ((atoms.map (fun a => (⟨a.1, a.2.1.toList, a.2.2.toList, data a.1⟩ : Element))).map (fun e => (Key.str (lower e.sym), e))))) := by
  obtain ⟨_, t2⟩ := table_spec _ (C79_data data)
  have mem : ∀ k a, basicElement (table (update [] ((atoms.map (fun a => (⟨a.1, a.2.1.toList, a.2.2.toList, data a.1⟩ : Element))).map (fun e => (Key.str (lower e.sym), e))))) k = .ok a →
      a ∈ atoms.map (fun a => (⟨a.1, a.2.1.toList, a.2.2.toList, data a.1⟩ : Element)) := by
    intro k a ha
    unfold basicElement at ha
    simp only at ha
    split at ha
    · rename_i v hv
      injection ha with ha
      subst ha
      exact (t2 _ _ hv).1
    · cases ha
  intro a b ka kb ha hb hab
  exact List.inj_on_of_nodup_map (List.nodup_append.1 (C79_data data).str).1 (mem _ _ ha) (mem _ _ hb) (by simp [hab])

end Verif.Consts
