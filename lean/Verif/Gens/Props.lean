/- Properties C195 and C196: generators side by side, handed-back states, and images that cannot be used. -/
import Verif.Gens.Model
import Verif.Corr.TwoProps
import Verif.Dpc.Props

namespace Verif.Gens
open Verif

/-! ## Specification -/

/-- What a generator gives when it is the only one: advance it by one image after the other. -/
def Spec.alone (M : Machine) : M.Shared → M.Priv → List M.Img → List (Ev M)
  | _, _, [] => []
  | s, p, im :: rest =>
    match M.adv s p im with
    | (_, .error e) => .raised e :: rest.map (fun _ => .stopped)
    | (s', .ok (p', o)) => .out o p' :: Spec.alone M s' p' rest

/-- The images given to generator `g` in a history, in order. -/
def Spec.imagesFor {M : Machine} (g : ℕ) (ops : List (Op M)) : List M.Img :=
  ops.filterMap (fun op => match op with | .next g' im => if g' = g then some im else none | _ => none)

/-- What generator `g` gave in a history, in order. -/
def Spec.givenBy {M : Machine} (g : ℕ) (evs : List (ℕ × Ev M)) : List (Ev M) :=
  evs.filterMap (fun e => if e.1 = g then some e.2 else none)

/-- Nobody else uses the arrays of generator `g` (at `addr`) during the history: no other generator that has them is
advanced, and they are not handed to a new one. -/
def Spec.Unshared {M : Machine} (w : World M) (g addr : ℕ) (ops : List (Op M)) : Prop :=
  (∀ (g' : ℕ) (G' : Gen M), w.gens[g']? = some G' → G'.addr = addr → g' ≠ g → ∀ im, Op.next g' im ∉ ops) ∧ ∀ p, Op.resume addr p ∉ ops

/-! ## Lemmas -/

variable {M : Machine}

theorem alone_cons (M : Machine) (s : M.Shared) (p : M.Priv) (im : M.Img) (rest : List M.Img) :
    Spec.alone M s p (im :: rest) = match M.adv s p im with
      | (_, .error e) => .raised e :: rest.map (fun _ => .stopped)
      | (s', .ok (p', o)) => .out o p' :: Spec.alone M s' p' rest := rfl

theorem given_append (g : ℕ) (a b : List (ℕ × Ev M)) : Spec.givenBy g (a ++ b) = Spec.givenBy g a ++ Spec.givenBy g b := by
  simp [Spec.givenBy]

/-- What `step` does to a generator and its arrays when somebody else acts. -/
theorem step_other (w : World M) (g : ℕ) (G : Gen M) (s : M.Shared) (hG : w.gens[g]? = some G) (hs : w.heap[G.addr]? = some s)
    (op : Op M) (hop : ∀ im, op ≠ .next g im)
    (hoth : ∀ g' im G', op = .next g' im → w.gens[g']? = some G' → G'.addr ≠ G.addr) :
    (w.step op).1.gens[g]? = some G ∧ (w.step op).1.heap[G.addr]? = some s ∧ Spec.givenBy g (w.step op).2.toList = [] ∧
    (∀ (g' : ℕ) (G' : Gen M), (w.step op).1.gens[g']? = some G' → G'.addr = G.addr → (∃ G0 : Gen M, w.gens[g']? = some G0 ∧ G0.addr = G.addr) ∨
      ∃ p, op = .resume G.addr p) := by
  have hlt : g < w.gens.length := (List.getElem?_eq_some_iff.1 hG).1
  have hlt2 : G.addr < w.heap.length := (List.getElem?_eq_some_iff.1 hs).1
  have happ : ∀ (X : Gen M) (g' : ℕ) (G' : Gen M), (w.gens ++ [X])[g']? = some G' → w.gens[g']? = some G' ∨ G' = X := by
    intro X g' G' h
    rw [List.getElem?_append] at h
    split at h
    · exact Or.inl h
    · right
      rw [List.getElem?_singleton] at h
      split at h <;> simp_all
  cases op with
  | start s' p =>
    refine ⟨by simp only [World.step]; rw [List.getElem?_append_left hlt, hG], by simp only [World.step]; rw [List.getElem?_append_left hlt2, hs], rfl, ?_⟩
    intro g' G' h ha
    simp only [World.step] at h
    rcases happ _ _ _ h with h | h
    · exact Or.inl ⟨G', h, ha⟩
    · rw [h] at ha; simp at ha; omega
  | resume a p =>
    refine ⟨by simp only [World.step]; rw [List.getElem?_append_left hlt, hG], hs, rfl, ?_⟩
    intro g' G' h ha
    simp only [World.step] at h
    rcases happ _ _ _ h with h | h
    · exact Or.inl ⟨G', h, ha⟩
    · rw [h] at ha; simp at ha; exact Or.inr ⟨p, by rw [ha]⟩
  | next g' im =>
    have hne : g' ≠ g := fun h => hop im (by rw [h])
    simp only [World.step]
    cases h1 : w.gens[g']? with
    | none => exact ⟨hG, hs, rfl, fun g'' G'' h ha => Or.inl ⟨G'', h, ha⟩⟩
    | some G' =>
      have hd := hoth g' im G' rfl h1
      simp only []
      by_cases hal : G'.alive = false
      · rw [if_pos hal]
        exact ⟨hG, hs, by simp [Spec.givenBy, hne], fun g'' G'' h ha => Or.inl ⟨G'', h, ha⟩⟩
      · rw [if_neg hal]
        cases h2 : w.heap[G'.addr]? with
        | none => exact ⟨hG, hs, rfl, fun g'' G'' h ha => Or.inl ⟨G'', h, ha⟩⟩
        | some s' =>
          simp only []
          have hset : ∀ X : Gen M, X.addr = G'.addr → ∀ (g'' : ℕ) (G'' : Gen M), (w.gens.set g' X)[g'']? = some G'' → G''.addr = G.addr →
              (∃ G0 : Gen M, w.gens[g'']? = some G0 ∧ G0.addr = G.addr) ∨ ∃ p, Op.next (M := M) g' im = .resume G.addr p := by
            intro X hX g'' G'' h ha
            rw [List.getElem?_set] at h
            split at h
            · split at h
              · simp only [Option.some.injEq] at h
                rw [← h, hX] at ha; exact absurd ha hd
              · simp at h
            · exact Or.inl ⟨G'', h, ha⟩
          rcases hadv : M.adv s' G'.priv im with ⟨s'', e | ⟨p', o⟩⟩
          · simp only []
            refine ⟨by rw [List.getElem?_set_ne hne, hG], by rw [List.getElem?_set_ne hd, hs], by simp [Spec.givenBy, hne], hset _ rfl⟩
          · simp only []
            refine ⟨by rw [List.getElem?_set_ne hne, hG], by rw [List.getElem?_set_ne hd, hs], by simp [Spec.givenBy, hne], hset _ rfl⟩

theorem unshared_tail (w : World M) (g addr : ℕ) (op : Op M) (ops : List (Op M)) (w' : World M)
    (h : Spec.Unshared w g addr (op :: ops))
    (hk : ∀ (g' : ℕ) (G' : Gen M), w'.gens[g']? = some G' → G'.addr = addr → (∃ G0 : Gen M, w.gens[g']? = some G0 ∧ G0.addr = addr) ∨
      ∃ p, op = .resume addr p) : Spec.Unshared w' g addr ops := by
  refine ⟨?_, fun p hp => h.2 p (List.mem_cons_of_mem _ hp)⟩
  intro g' G' hg ha hne im him
  rcases hk g' G' hg ha with ⟨G0, h0, h1⟩ | ⟨p, hp⟩
  · exact h.1 g' G0 h0 h1 hne im (List.mem_cons_of_mem _ him)
  · exact h.2 p (by rw [hp]; simp)

/-- A generator that has ended only raises StopIteration. -/
theorem run_dead (ops : List (Op M)) (w : World M) (g : ℕ) (G : Gen M) (hG : w.gens[g]? = some G) (hd : G.alive = false) :
    Spec.givenBy g (w.run ops).2 = (Spec.imagesFor g ops).map (fun _ => .stopped) := by
  induction ops generalizing w with
  | nil => rfl
  | cons op ops ih =>
    have hlt : g < w.gens.length := (List.getElem?_eq_some_iff.1 hG).1
    simp only [World.run, given_append]
    cases op with
    | start s p =>
      rw [ih _ (by simp only [World.step]; rw [List.getElem?_append_left hlt, hG])]
      simp [World.step, Spec.givenBy, Spec.imagesFor]
    | resume a p =>
      rw [ih _ (by simp only [World.step]; rw [List.getElem?_append_left hlt, hG])]
      simp [World.step, Spec.givenBy, Spec.imagesFor]
    | next g' im =>
      by_cases hg : g' = g
      · subst hg
        have : w.step (.next g' im) = (w, some (g', .stopped)) := by simp [World.step, hG, hd]
        rw [this]
        simp only
        rw [ih w hG]
        simp [Spec.givenBy, Spec.imagesFor]
      · have hw : (w.step (.next g' im)).1.gens[g]? = some G ∧ Spec.givenBy g (w.step (.next g' im)).2.toList = [] := by
          simp only [World.step]
          cases h1 : w.gens[g']? with
          | none => exact ⟨hG, rfl⟩
          | some G' =>
            simp only []
            split
            · exact ⟨hG, by simp [Spec.givenBy, hg]⟩
            · cases h2 : w.heap[G'.addr]? with
              | none => exact ⟨hG, rfl⟩
              | some s' =>
                simp only []
                rcases M.adv s' G'.priv im with ⟨s'', e | ⟨p', o⟩⟩ <;> simp only [] <;>
                  exact ⟨by rw [List.getElem?_set_ne hg, hG], by simp [Spec.givenBy, hg]⟩
        rw [hw.2, ih _ hw.1]
        simp [Spec.imagesFor, hg]

theorem run_alone (ops : List (Op M)) (w : World M) (g : ℕ) (G : Gen M) (s : M.Shared) (hG : w.gens[g]? = some G)
    (ha : G.alive = true) (hs : w.heap[G.addr]? = some s) (hu : Spec.Unshared w g G.addr ops) :
    Spec.givenBy g (w.run ops).2 = Spec.alone M s G.priv (Spec.imagesFor g ops) := by
  induction ops generalizing w G s with
  | nil => rfl
  | cons op ops ih =>
    simp only [World.run, given_append]
    have hlt : g < w.gens.length := (List.getElem?_eq_some_iff.1 hG).1
    have hlt2 : G.addr < w.heap.length := (List.getElem?_eq_some_iff.1 hs).1
    by_cases hop : ∃ im, op = .next g im
    · obtain ⟨im, rfl⟩ := hop
      have himg : Spec.imagesFor g (Op.next g im :: ops) = im :: Spec.imagesFor g ops := by simp [Spec.imagesFor]
      rw [himg]
      rcases hadv : M.adv s G.priv im with ⟨s', e | ⟨p', o⟩⟩
      · have hst : w.step (.next g im) = (⟨w.heap.set G.addr s', w.gens.set g { G with alive := false }⟩, some (g, .raised e)) := by
          simp [World.step, hG, ha, hs, hadv]
        rw [hst]
        simp only
        rw [run_dead ops _ g { G with alive := false } (by simp [hlt]) rfl]
        simp [Spec.givenBy, Spec.alone, hadv]
      · have hst : w.step (.next g im) = (⟨w.heap.set G.addr s', w.gens.set g { G with priv := p' }⟩, some (g, .out o p')) := by
          simp [World.step, hG, ha, hs, hadv]
        rw [hst]
        simp only
        rw [ih _ { G with priv := p' } s' (by simp [hlt]) ha (by simp [hlt2]) ?_]
        · simp [Spec.givenBy, Spec.alone, hadv]
        · refine unshared_tail w g G.addr _ ops _ hu ?_
          intro g' G' h h'
          simp only at h
          rw [List.getElem?_set] at h
          split at h
          · rename_i hgg
            exact Or.inl ⟨G, by rw [← hgg, hG], rfl⟩
          · exact Or.inl ⟨G', h, h'⟩
    · push Not at hop
      obtain ⟨h1, h2, h3, h4⟩ := step_other w g G s hG hs op hop (by
        intro g' im G' he h1 h2
        refine hu.1 g' G' h1 h2 ?_ im (by rw [he]; simp)
        intro h; exact hop im (by rw [he, h]))
      rw [h3, ih _ G s h1 ha h2 (unshared_tail w g G.addr op ops _ hu h4), List.nil_append]
      congr 1
      cases op with
      | start s p => simp [Spec.imagesFor]
      | resume a p => simp [Spec.imagesFor]
      | next g' im =>
        have : g' ≠ g := fun h => hop im (by rw [h])
        simp [Spec.imagesFor, this]

/-! ## The generators alone -/

/-- One-time: what the generator gives alone are the results of Corr/Model.lean. -/
theorem alone_oneTime (k : Conf) (s : Corr.St) (ims : List (List (Option ℚ))) :
    Spec.alone oneTime (k, s) () ims = (Corr.lazyOneTime k.c k.pixels k.lags s ims).1.map (fun r => .out r ()) ++
      (match (Corr.lazyOneTime k.c k.pixels k.lags s ims).2.2 with
        | none => []
        | some e => .raised e :: (ims.drop ((Corr.lazyOneTime k.c k.pixels k.lags s ims).1.length + 1)).map (fun _ => .stopped)) := by
  induction ims generalizing s with
  | nil => rfl
  | cons im rest ih =>
    refine (alone_cons oneTime (k, s) () im rest).trans ?_
    rw [Corr.lazyOneTime]
    cases hs : Corr.select k.pixels im with
    | error e =>
      have hadv : oneTime.adv (k, s) () im = ((k, (bump k.c.n s.1, s.2)), .error e) := by simp only [oneTime, hs]
      rw [hadv]
      rfl
    | ok x =>
      have hadv : oneTime.adv (k, s) () im = ((k, Corr.step k.c s x), .ok ((), Corr.result k.c k.lags (Corr.step k.c s x))) := by
        simp only [oneTime, hs]
      rw [hadv]
      exact congrArg (List.cons _) (ih (Corr.step k.c s x))

/-- The frames a two-time generator gives alone. -/
theorem alone_twoTime (nf : ℕ) (junk : Conf × Corr.TSt → Conf × Corr.TSt) (k : Conf) (s : Corr.TSt) (ims : List (List (Option ℚ)))
    (hok : (Corr.lazyTwoTime k.c k.pixels k.lags nf s ims).2 = none) :
    Spec.alone (twoTime nf junk) (k, s) s.2.time ims =
      (List.range ims.length).map (fun (i : ℕ) =>
        let s' := (Corr.lazyTwoTime k.c k.pixels k.lags nf s (ims.take (i + 1))).1
        .out s'.2.g2 s'.2.time) := by
  induction ims generalizing s with
  | nil => rfl
  | cons im rest ih =>
    rw [Corr.lazyTwoTime] at hok
    refine (alone_cons (twoTime nf junk) (k, s) s.2.time im rest).trans ?_
    simp only [twoTime]
    cases hs : Corr.select k.pixels im with
    | error e => rw [hs] at hok; simp at hok
    | ok x =>
      rw [hs] at hok
      simp only at hok ⊢
      by_cases he : (Corr.step2 k.c k.lags nf s x).2.err = true
      · rw [if_pos he] at hok; simp at hok
      · rw [if_neg he] at hok
        have hsame : ((s.1, { s.2 with time := s.2.time }) : Corr.TSt) = s := rfl
        rw [hsame, if_neg he]
        simp only [List.length_cons, List.range_succ_eq_map, List.map_cons, List.map_map]
        congr 1
        · simp only [List.take_succ_cons, List.take_zero]
          rw [Corr.lazyTwoTime, hs]
          simp only
          rw [if_neg he]
          rfl
        · refine (ih _ hok).trans (List.map_congr_left (fun i _ => ?_))
          simp only [Function.comp, List.take_succ_cons]
          rw [Corr.lazyTwoTime, hs]
          simp only
          rw [if_neg he]
          rfl

/-- DPC: what the generator gives alone are the states of Dpc/Model.lean. -/
theorem alone_dpc {α ι : Type} (fit : ι → (α × α) × (α × α)) (rows cols : ℕ) (s : Dpc.State α) (ims : List ι)
    (hok : (Dpc.lazyDpc fit rows cols s ims).2 = none) :
    Spec.alone (dpc fit rows cols) s () ims = (Dpc.lazyDpc fit rows cols s ims).1.map (fun r => .out r ()) := by
  induction ims generalizing s with
  | nil => rfl
  | cons im rest ih =>
    rw [Dpc.lazyDpc] at hok
    refine (alone_cons (dpc fit rows cols) s () im rest).trans ?_
    rw [Dpc.lazyDpc]
    cases hs : Dpc.step fit rows cols s im with
    | error e => rw [hs] at hok; simp at hok
    | ok s' =>
      rw [hs] at hok
      have hadv : (dpc fit rows cols).adv s () im = (s', .ok ((), s')) := by simp only [dpc, hs]
      rw [hadv]
      exact congrArg (List.cons _) (ih s' hok)

/-! ## C195 -/

/-- C195: generators started without a state do not influence each other.  Whatever else is started, resumed and advanced
in between, a generator gives what it gives alone for the images it is advanced by, as long as the state it yields is not
handed to another generator.  (Its number and the address of its arrays are the next free ones.) -/
theorem C195_independent_partial (M : Machine) (w : World M) (hw : ∀ G ∈ w.gens, G.addr < w.heap.length) (s : M.Shared) (p : M.Priv)
    (ops : List (Op M)) (hr : ∀ q, Op.resume w.heap.length q ∉ ops) :
    Spec.givenBy w.gens.length (w.run (.start s p :: ops)).2 = Spec.alone M s p (Spec.imagesFor w.gens.length ops) := by
  have h := run_alone ops ⟨w.heap ++ [s], w.gens ++ [⟨w.heap.length, p, true⟩]⟩ w.gens.length ⟨w.heap.length, p, true⟩ s
    (by simp) rfl (by simp) ?_
  · simpa [World.run, World.step, Spec.givenBy] using h
  · refine ⟨?_, hr⟩
    intro g' G' hg ha hne
    simp only at hg ha
    rw [List.getElem?_append] at hg
    split at hg
    · have := hw G' (List.mem_of_getElem? hg)
      omega
    · rw [List.getElem?_singleton] at hg
      split at hg
      · omega
      · simp at hg

/-- C195: a state handed back is continued correctly as long as nobody else uses it: the new generator gives what the old
one would have given for the same images. -/
theorem C195_resume_partial (M : Machine) (w : World M) (addr : ℕ) (s : M.Shared)
    (hs : w.heap[addr]? = some s) (p : M.Priv) (ops : List (Op M)) (hr : ∀ q, Op.resume addr q ∉ ops)
    (hn : ∀ (g : ℕ) G, w.gens[g]? = some G → G.addr = addr → ∀ im, Op.next g im ∉ ops) :
    Spec.givenBy w.gens.length (w.run (.resume addr p :: ops)).2 = Spec.alone M s p (Spec.imagesFor w.gens.length ops) := by
  have h := run_alone ops ⟨w.heap, w.gens ++ [⟨addr, p, true⟩]⟩ w.gens.length ⟨addr, p, true⟩ s (by simp) rfl (by simpa using hs) ?_
  · simpa [World.run, World.step, Spec.givenBy] using h
  · refine ⟨?_, hr⟩
    intro g' G' hg ha hne
    simp only at hg ha
    rw [List.getElem?_append] at hg
    split at hg
    · exact hn g' G' hg ha
    · rw [List.getElem?_singleton] at hg
      split at hg
      · omega
      · simp at hg

/-- C195: for the generators whose state is shared entirely (`lazy_one_time`, `lazy_dpc`), all generators holding the same
state together behave as a single one given all the images in the order of the calls: handing back a state does not go
back to the moment it was yielded. -/
theorem C195_shared (M : Machine) [Subsingleton M.Priv] (w : World M) (addr : ℕ) (s : M.Shared) (hs : w.heap[addr]? = some s)
    (p : M.Priv) (calls : List (ℕ × M.Img)) (hc : ∀ c ∈ calls, ∃ G : Gen M, w.gens[c.1]? = some G ∧ G.addr = addr ∧ G.alive = true)
    (hok : ∀ e ∈ Spec.alone M s p (calls.map Prod.snd), ∃ o q, e = .out o q) :
    (w.run (calls.map (fun (c : ℕ × M.Img) => Op.next c.1 c.2))).2 =
      (calls.map Prod.fst).zip (Spec.alone M s p (calls.map Prod.snd)) := by
  induction calls generalizing w s p with
  | nil => rfl
  | cons c calls ih =>
    obtain ⟨g, im⟩ := c
    obtain ⟨G, hG, ha, hal⟩ := hc (g, im) (by simp)
    simp only at hG
    have hlt : g < w.gens.length := (List.getElem?_eq_some_iff.1 hG).1
    have hlt2 : addr < w.heap.length := (List.getElem?_eq_some_iff.1 hs).1
    have hp : G.priv = p := Subsingleton.elim _ _
    simp only [List.map_cons, World.run]
    rcases hadv : M.adv s p im with ⟨s', e | ⟨p', o⟩⟩
    · exfalso
      obtain ⟨o, q, h⟩ := hok (.raised e) (by simp [Spec.alone, hadv])
      cases h
    · have hst : w.step (.next g im) = (⟨w.heap.set addr s', w.gens.set g { G with priv := p' }⟩, some (g, .out o p')) := by
        simp [World.step, hG, hal, ha, hs, hp, hadv]
      rw [hst]
      simp only [Option.toList_some, List.cons_append, List.nil_append, Spec.alone, hadv, List.zip_cons_cons]
      congr 1
      refine ih _ s' (by simp [hlt2]) p' ?_ ?_
      · intro c hcm
        obtain ⟨G', hG', ha', hal'⟩ := hc c (by simp [hcm])
        by_cases hg : c.1 = g
        · refine ⟨{ G with priv := p' }, by simp [hg, hlt], ha, hal⟩
        · exact ⟨G', by simp only; rw [List.getElem?_set_ne (Ne.symm hg), hG'], ha', hal'⟩
      · intro e he
        exact hok e (by simp only [List.map_cons, Spec.alone, hadv, List.mem_cons]; exact Or.inr he)

instance : Subsingleton oneTime.Priv := inferInstanceAs (Subsingleton Unit)
instance {α ι : Type} (fit : ι → (α × α) × (α × α)) (rows cols : ℕ) : Subsingleton (dpc fit rows cols).Priv :=
  inferInstanceAs (Subsingleton Unit)

/-- C195 for `lazy_one_time`: among any other correlations, advanced in any order, a fresh generator reports for the images
it is given what a run of its own over these images reports. -/
theorem C195_one_time_partial (w : World oneTime) (hw : ∀ G ∈ w.gens, G.addr < w.heap.length) (k : Conf)
    (ops : List (Op oneTime)) (hr : ∀ q, Op.resume w.heap.length q ∉ ops) (ims : List (List (Option ℚ)))
    (hi : Spec.imagesFor w.gens.length ops = ims) (hok : ∀ im ∈ ims, ∀ q ∈ k.pixels, q < im.length) :
    Spec.givenBy w.gens.length (w.run (.start (k, Corr.init k.c) () :: ops)).2 =
      (Corr.lazyOneTime k.c k.pixels k.lags (Corr.init k.c) ims).1.map (fun r => .out r ()) := by
  refine (C195_independent_partial oneTime w hw (k, Corr.init k.c) () ops hr).trans ?_
  rw [hi, alone_oneTime, Corr.lazy_fold k.c k.pixels k.lags _ ims hok]
  simp

/-- C195 for `lazy_two_time`: likewise; the i-th state yielded holds the matrix of a run of its own over the first i + 1
images. -/
theorem C195_two_time_partial (nf : ℕ) (junk : Conf × Corr.TSt → Conf × Corr.TSt) (w : World (twoTime nf junk))
    (hw : ∀ G ∈ w.gens, G.addr < w.heap.length) (k : Conf) (ops : List (Op (twoTime nf junk)))
    (hr : ∀ q, Op.resume w.heap.length q ∉ ops) (ims : List (List (Option ℚ))) (hi : Spec.imagesFor w.gens.length ops = ims)
    (hok : (Corr.lazyTwoTime k.c k.pixels k.lags nf (Corr.init2 k.c) ims).2 = none) :
    Spec.givenBy w.gens.length (w.run (.start (k, Corr.init2 k.c) (0 : ℕ) :: ops)).2 =
      (List.range ims.length).map (fun (i : ℕ) =>
        let s' := (Corr.lazyTwoTime k.c k.pixels k.lags nf (Corr.init2 k.c) (ims.take (i + 1))).1
        .out s'.2.g2 s'.2.time) := by
  refine (C195_independent_partial (twoTime nf junk) w hw (k, Corr.init2 k.c) (0 : ℕ) ops hr).trans ?_
  rw [hi]
  exact alone_twoTime nf junk k (Corr.init2 k.c) ims hok

/-- C195 for `lazy_dpc`: likewise. -/
theorem C195_dpc_partial {α ι : Type} (fit : ι → (α × α) × (α × α)) (rows cols : ℕ) (w : World (dpc fit rows cols))
    (hw : ∀ G ∈ w.gens, G.addr < w.heap.length) (s : Dpc.State α) (ops : List (Op (dpc fit rows cols)))
    (hr : ∀ q, Op.resume w.heap.length q ∉ ops) (ims : List ι) (hi : Spec.imagesFor w.gens.length ops = ims)
    (hok : (Dpc.lazyDpc fit rows cols s ims).2 = none) :
    Spec.givenBy w.gens.length (w.run (.start s () :: ops)).2 = (Dpc.lazyDpc fit rows cols s ims).1.map (fun r => .out r ()) := by
  refine (C195_independent_partial (dpc fit rows cols) w hw s () ops hr).trans ?_
  rw [hi]
  exact alone_dpc fit rows cols s ims hok

theorem resume_last (M : Machine) [Subsingleton M.Priv] (q : M.Priv) (C : List M.Img) : ∀ (A : List M.Img) (s : M.Shared) (p : M.Priv),
    (∀ e ∈ Spec.alone M s p (A ++ C), ∃ o r, e = .out o r) →
    Spec.givenBy 1 ((⟨[s], [⟨0, p, true⟩]⟩ : World M).run (A.map (Op.next 0) ++ .resume 0 q :: C.map (Op.next 1))).2 =
      (Spec.alone M s p (A ++ C)).drop A.length := by
  intro A
  induction A with
  | nil =>
    intro s p _
    have h2 := C195_resume_partial M ⟨[s], [⟨0, p, true⟩]⟩ 0 s rfl q (C.map (Op.next 1)) (by simp) (by
      intro g G hg _ im hm
      have hlt := (List.getElem?_eq_some_iff.1 hg).1
      simp at hlt hm
      omega)
    have himg : Spec.imagesFor (M := M) 1 (C.map (Op.next 1)) = C := by
      simp [Spec.imagesFor, List.filterMap_map]
    simp only [List.length_cons, List.length_nil, Nat.zero_add, himg] at h2
    rw [List.map_nil, List.nil_append, h2, Subsingleton.elim q p]
    rfl
  | cons im A ih =>
    intro s p h
    rcases hadv : M.adv s p im with ⟨s', e | ⟨p', o⟩⟩
    · exfalso
      obtain ⟨o, q, h⟩ := h (.raised e) (by simp [Spec.alone, hadv])
      cases h
    · have hst : (⟨[s], [⟨0, p, true⟩]⟩ : World M).step (.next 0 im) = (⟨[s'], [⟨0, p', true⟩]⟩, some (0, .out o p')) := by
        simp [World.step, hadv]
      simp only [List.map_cons, List.cons_append, World.run, given_append, hst, Spec.alone, hadv, List.length_cons, List.drop_succ_cons]
      rw [ih s' p' (fun e he => h e (by simp only [List.cons_append, Spec.alone, hadv, List.mem_cons]; exact Or.inr he))]
      simp [Spec.givenBy]

/-- C195: the state saved by the caller is the current one.  Advance a generator by the images `A`, keep the state yielded, advance
it further by `B`, hand the state back and advance the new generator by `C`: it gives what one run over `A ++ B ++ C`
gives for the images of `C`. -/
theorem C195_state_is_current (M : Machine) [Subsingleton M.Priv] (s : M.Shared) (p q : M.Priv) (A B C : List M.Img)
    (hok : ∀ e ∈ Spec.alone M s p (A ++ B ++ C), ∃ o r, e = .out o r) :
    Spec.givenBy 1 ((⟨[], []⟩ : World M).run
      (.start s p :: (A.map (Op.next 0) ++ B.map (Op.next 0) ++ .resume 0 q :: C.map (Op.next 1)))).2 =
      (Spec.alone M s p (A ++ B ++ C)).drop (A.length + B.length) := by
  have h := resume_last M q C (A ++ B) s p hok
  rw [List.length_append] at h
  rw [← h, List.map_append]
  simp [World.run, World.step, Spec.givenBy]

/-! The concrete states of the refutations: one pixel, one level of two buffers. -/

/-- One region of one pixel, two buffers, one level. -/
def exConf : Conf := ⟨⟨1, 2, [1]⟩, [0], [0, 1]⟩

/-- One region of two pixels, two buffers, one level. -/
def exConf2 : Conf := ⟨⟨1, 2, [1, 1]⟩, [0, 1], [0, 1]⟩

/-- The g2 rows given in a history. -/
def g2s (evs : List (ℕ × Ev oneTime)) : List (Option (List (List (Option ℚ)))) :=
  evs.map (fun e => match e.2 with | .out r _ => some r.g2 | _ => none)

/-- C195 refuted for `lazy_one_time`: a state saved after the first image, handed back after the generator has seen a
second one, continues from the second image.  Frames 1, 3 and then 5: the resumed generator reports the curve of 1, 3, 5 and
not that of 1, 5. -/
theorem C195_snapshot_refuted :
    let w : World oneTime := ⟨[], []⟩
    let s : oneTime.Shared := (exConf, Corr.init exConf.c)
    (g2s (w.run [.start s (), .next 0 [some 1], .next 0 [some 3], .resume 0 (), .next 1 [some 5]]).2)[2]? ≠
      (g2s (w.run [.start s (), .next 0 [some 1], .resume 0 (), .next 1 [some 5]]).2)[1]? := by
  decide +kernel

/-- The entries (1, 0) and (1, 1) of the matrices given in a history of two-time generators. -/
def two10s (evs : List (ℕ × Ev (twoTime 4 id))) : List (Option (Option ℚ × Option ℚ)) :=
  evs.map (fun e => match e.2 with
    | .out (r : ℕ → ℕ → ℕ → Option ℚ) _ => some (r 0 1 0, r 0 1 1)
    | _ => none)

/-- C195 refuted for `lazy_two_time`: with a state saved after the first of two pixels frames the resumed generator, whose
time counter is that of the saved state, writes its image over the second image and correlates it with that one instead of the
first. -/
theorem C195_snapshot_two_time_refuted :
    let w : World (twoTime 4 id) := ⟨[], []⟩
    let s : (twoTime 4 id).Shared := (exConf2, Corr.init2 exConf2.c)
    (two10s (w.run [.start s (0 : ℕ), .next 0 [some 1, some 2], .next 0 [some 3, some 1], .resume 0 (1 : ℕ), .next 1 [some 5, some 2]]).2)[2]? ≠
      (two10s (w.run [.start s (0 : ℕ), .next 0 [some 1, some 2], .resume 0 (1 : ℕ), .next 1 [some 5, some 2]]).2)[1]? := by
  decide +kernel

/-! ## The time counter of a two-time generator is its own -/

theorem writeCells_time (nf : ℕ) (val : ℕ → Option ℚ) (cells : List (ℚ × ℚ)) : ∀ a : Corr.TAcc, (cells.foldl (Corr.writeCell nf val) a).time = a.time := by
  induction cells with
  | nil => intro a; rfl
  | cons x l ih =>
    intro a
    rw [List.foldl_cons, ih]
    unfold Corr.writeCell
    split
    · rfl
    · split <;> rfl

theorem delays_time (c : Corr.Cfg) (lags : List ℕ) (nf : ℕ) (r : Corr.Ring Corr.Frame) (level : ℕ) (time : ℚ) (ds : List ℕ) :
    ∀ a : Corr.TAcc, (ds.foldl (Corr.oneDelay2 c lags nf r level time) a).time = a.time := by
  induction ds with
  | nil => intro a; rfl
  | cons d l ih =>
    intro a
    rw [List.foldl_cons, ih]
    unfold Corr.oneDelay2
    simp only
    split
    · rfl
    · rw [writeCells_time]

theorem process2_time (c : Corr.Cfg) (lags : List ℕ) (nf : ℕ) (r : Corr.Ring Corr.Frame) (level : ℕ) (a : Corr.TAcc) :
    (a.err = true → Corr.process2 c lags nf r level a = a) ∧
    (a.err = false → (Corr.process2 c lags nf r level a).time = if level = 0 then a.time + 1 else a.time) := by
  unfold Corr.process2
  refine ⟨fun h => by rw [if_pos h], fun h => ?_⟩
  rw [if_neg (by simp [h])]
  by_cases h0 : level = 0
  · rw [if_pos h0, if_pos h0]
    simp only
    rw [delays_time]
  · rw [if_neg h0, if_neg h0]
    simp only
    split
    · rw [delays_time]
    · rfl

theorem cascade_time (c : Corr.Cfg) (lags : List ℕ) (nf T : ℕ) (fuel : ℕ) : ∀ (level : ℕ) (s : Corr.TSt), 1 ≤ level → (s.2.err = true ∨ s.2.time = T) →
    ((Corr.cascade Corr.avg c.n (Corr.process2 c lags nf) fuel level s).2.err = true ∨
      (Corr.cascade Corr.avg c.n (Corr.process2 c lags nf) fuel level s).2.time = T) := by
  induction fuel with
  | zero => intro level s _ h; exact h
  | succ fuel ih =>
    intro level s hl h
    unfold Corr.cascade
    simp only
    split
    · exact h
    · apply ih _ _ (by omega)
      by_cases he : s.2.err = true
      · left
        show (Corr.process2 _ _ _ _ _ _).err = true
        rw [(process2_time _ _ _ _ _ _).1 he]; exact he
      · right
        show (Corr.process2 _ _ _ _ _ _).time = T
        rw [(process2_time _ _ _ _ _ _).2 (by simpa using he), if_neg (by omega)]
        exact h.resolve_left he

theorem step2_time (c : Corr.Cfg) (lags : List ℕ) (nf : ℕ) (s : Corr.TSt) (x : Corr.Frame) :
    (Corr.step2 c lags nf s x).2.err = true ∨ (Corr.step2 c lags nf s x).2.time = s.2.time + 1 := by
  unfold Corr.step2 Corr.feed
  apply cascade_time _ _ _ _ _ _ _ le_rfl
  by_cases he : s.2.err = true
  · left
    show (Corr.process2 _ _ _ _ _ _).err = true
    rw [(process2_time _ _ _ _ _ _).1 he]; exact he
  · right
    show (Corr.process2 _ _ _ _ _ _).time = _
    rw [(process2_time _ _ _ _ _ _).2 (by simpa using he), if_pos rfl]

/-- The time counter in a state of a two-time generator. -/
def Spec.counter {nf : ℕ} {junk} (p : (twoTime nf junk).Priv) : ℕ := p

theorem adv_time' (nf : ℕ) (junk : Conf × Corr.TSt → Conf × Corr.TSt) (k : Conf) (s : Corr.TSt) (t : ℕ) (im : List (Option ℚ)) (s' : Conf × Corr.TSt) (t' : ℕ) (o : ℕ → ℕ → ℕ → Option ℚ)
    (h : (match Corr.select k.pixels im with
      | .error e => ((k, (bump k.c.n s.1, { s.2 with count := Corr.put1 s.2.count 0 (s.2.count 0 + 1) })), .error e)
      | .ok x =>
        let s' := Corr.step2 k.c k.lags nf (s.1, { s.2 with time := t }) x
        if s'.2.err then (junk (k, s'), .error .indexError) else ((k, s'), .ok (s'.2.time, s'.2.g2)) :
        (Conf × Corr.TSt) × Except PyErr (ℕ × (ℕ → ℕ → ℕ → Option ℚ))) = (s', .ok (t', o))) : t' = t + 1 := by
  split at h
  · simp at h
  · rename_i x _
    simp only at h
    split at h
    · simp at h
    · rename_i he
      simp only [Prod.mk.injEq, Except.ok.injEq] at h
      rw [← h.2.1]
      rcases step2_time k.c k.lags nf (s.1, { s.2 with time := t }) x with h1 | h1
      · exact absurd h1 (by simpa using he)
      · exact h1

theorem adv_time (nf : ℕ) (junk) (s : (twoTime nf junk).Shared) (t : (twoTime nf junk).Priv) (im : (twoTime nf junk).Img) (s' : (twoTime nf junk).Shared)
    (t' : (twoTime nf junk).Priv) (o : (twoTime nf junk).Out) (h : (twoTime nf junk).adv s t im = (s', .ok (t', o))) : Spec.counter t' = Spec.counter t + 1 :=
  adv_time' nf junk s.1 s.2 t im s' t' o h

/-- The time counters in the states that generator `g` yielded, in order. -/
def Spec.counters {nf : ℕ} {junk} (g : ℕ) (evs : List (ℕ × Ev (twoTime nf junk))) : List ℕ :=
  (Spec.givenBy g evs).filterMap (fun e => match e with | .out _ p => some (Spec.counter p) | _ => none)

/-- The time counter of a two-time generator is its own: in every history, whoever else uses the same arrays, the states
that a generator yields are numbered consecutively from the counter of the state that it was started with. -/
theorem C195_counter (nf : ℕ) (junk) (ops : List (Op (twoTime nf junk))) (w : World (twoTime nf junk)) (g : ℕ) (G : Gen (twoTime nf junk)) (hG : w.gens[g]? = some G) :
    ∃ k, Spec.counters g (w.run ops).2 = (List.range k).map (fun i => Spec.counter G.priv + 1 + i) := by
  induction ops generalizing w G with
  | nil => exact ⟨0, rfl⟩
  | cons op ops ih =>
    have hlt : g < w.gens.length := (List.getElem?_eq_some_iff.1 hG).1
    have split : Spec.counters g (w.run (op :: ops)).2 = Spec.counters g (w.step op).2.toList ++ Spec.counters g ((w.step op).1.run ops).2 := by
      unfold Spec.counters
      rw [← List.filterMap_append, ← given_append]
      rfl
    rw [split]
    -- the generator is untouched and gives nothing
    have same : ∀ w' : World (twoTime nf junk), (w.step op).1 = w' → w'.gens[g]? = some G → Spec.counters g (w.step op).2.toList = [] →
        ∃ k, Spec.counters g (w.step op).2.toList ++ Spec.counters g ((w.step op).1.run ops).2 = (List.range k).map (fun i => Spec.counter G.priv + 1 + i) := by
      intro w' e h1 h2
      rw [e, h2]
      exact ih w' G h1
    cases op with
    | start s p => exact same _ rfl (by simp [World.step, List.getElem?_append_left hlt, hG]) rfl
    | resume a p => exact same _ rfl (by simp [World.step, List.getElem?_append_left hlt, hG]) rfl
    | next g' im =>
      by_cases hg : g' = g
      · subst hg
        simp only [World.step, hG]
        by_cases hd : G.alive = false
        · rw [if_pos hd]
          obtain ⟨k, hk⟩ := ih w G hG
          exact ⟨k, by rw [hk]; simp [Spec.counters, Spec.givenBy]⟩
        · rw [if_neg hd]
          cases hh : w.heap[G.addr]? with
          | none =>
            obtain ⟨k, hk⟩ := ih w G hG
            exact ⟨k, by rw [hk]; simp [Spec.counters, Spec.givenBy]⟩
          | some s =>
            simp only
            rcases hadv : (twoTime nf junk).adv s G.priv im with ⟨s', e | ⟨p', o⟩⟩
            · simp only
              refine ⟨0, ?_⟩
              have := run_dead ops (⟨w.heap.set G.addr s', w.gens.set g' { G with alive := false }⟩ : World (twoTime nf junk)) g' { G with alive := false } (by simp [hlt]) rfl
              unfold Spec.counters
              rw [this]
              simp [Spec.givenBy]
            · simp only
              obtain ⟨k, hk⟩ := ih ⟨w.heap.set G.addr s', w.gens.set g' { G with priv := p' }⟩ { G with priv := p' } (by simp [hlt])
              refine ⟨k + 1, ?_⟩
              rw [hk, List.range_succ_eq_map]
              have hp := adv_time nf junk s G.priv im s' p' o hadv
              have h1 : Spec.counters g' (some (g', Ev.out (M := twoTime nf junk) o p')).toList = [Spec.counter p'] := by
                simp [Spec.counters, Spec.givenBy]
              rw [h1, List.map_cons, List.map_map]
              simp only [List.cons_append, List.nil_append, List.cons.injEq]
              refine ⟨hp, ?_⟩
              apply List.map_congr_left
              intro i _
              simp only [Function.comp]
              show Spec.counter p' + 1 + i = _
              rw [hp]; omega
      · have hne : g' ≠ g := hg
        simp only [World.step]
        cases hg' : w.gens[g']? with
        | none =>
          obtain ⟨k, hk⟩ := ih w G hG
          exact ⟨k, by simpa [Spec.counters, Spec.givenBy] using hk⟩
        | some G' =>
          simp only
          by_cases hd : G'.alive = false
          · rw [if_pos hd]
            obtain ⟨k, hk⟩ := ih w G hG
            exact ⟨k, by rw [hk]; simp [Spec.counters, Spec.givenBy, hne]⟩
          · rw [if_neg hd]
            cases hh : w.heap[G'.addr]? with
            | none =>
              obtain ⟨k, hk⟩ := ih w G hG
              exact ⟨k, by rw [hk]; simp [Spec.counters, Spec.givenBy]⟩
            | some s =>
              simp only
              rcases hadv : (twoTime nf junk).adv s G'.priv im with ⟨s', e | ⟨p', o⟩⟩
              · simp only
                obtain ⟨k, hk⟩ := ih ⟨w.heap.set G'.addr s', w.gens.set g' { G' with alive := false }⟩ G (by simp [List.getElem?_set_ne hne, hG])
                exact ⟨k, by rw [hk]; simp [Spec.counters, Spec.givenBy, hne]⟩
              · simp only
                obtain ⟨k, hk⟩ := ih ⟨w.heap.set G'.addr s', w.gens.set g' { G' with priv := p' }⟩ G (by simp [List.getElem?_set_ne hne, hG])
                exact ⟨k, by rw [hk]; simp [Spec.counters, Spec.givenBy, hne]⟩

-- two generators on the same arrays: the resumed one counts on from the state it was given
example : Spec.counters 1 ((⟨[], []⟩ : World (twoTime 4 id)).run [.start (exConf2, Corr.init2 exConf2.c) (0 : ℕ), .next 0 [some 1, some 2],
    .next 0 [some 3, some 1], .resume 0 (1 : ℕ), .next 1 [some 5, some 2]]).2 = [2] := by decide +kernel

/-! ## C196 -/

/-- C196, what holds: an image that cannot be used raises and does not change the correlation reported so far. -/
theorem C196_bad_image_partial (k : Conf) (s : Corr.St) (im : List (Option ℚ)) (s' : Conf × Corr.St) (e : PyErr)
    (h : oneTime.adv (k, s) () im = (s', .error e)) :
    e = .indexError ∧ Corr.result k.c k.lags s'.2 = Corr.result k.c k.lags s := by
  simp only [oneTime] at h
  cases hs : Corr.select k.pixels im with
  | ok x => rw [hs] at h; simp at h
  | error e' =>
    rw [hs] at h
    simp only [Prod.mk.injEq, Except.error.injEq] at h
    refine ⟨?_, by rw [← h.1]; rfl⟩
    rw [← h.2]
    have : ∀ (l : List ℕ) (e' : PyErr), Corr.select l im = .error e' → e' = .indexError := by
      intro l
      induction l with
      | nil => intro e' h; cases h
      | cons a l ih =>
        intro e' h
        unfold Corr.select at h ih
        simp only [List.mapM_cons, bind, Except.bind] at h
        cases ha : im[a]? with
        | none => rw [ha] at h; cases h; rfl
        | some v =>
          rw [ha] at h
          simp only at h
          split at h
          · rename_i e2 hl
            cases h
            exact ih _ hl
          · cases h
    exact this _ _ hs

/-- C196: an image is refused exactly if some pixel of the regions lies outside it. -/
theorem C196_raises_iff (k : Conf) (s : Corr.St) (im : List (Option ℚ)) :
    (∃ s' e, oneTime.adv (k, s) () im = (s', .error e)) ↔ ∃ q ∈ k.pixels, im.length ≤ q := by
  constructor
  · rintro ⟨s', e, h⟩
    by_contra hn
    push Not at hn
    have := Corr.select_ok k.pixels im hn
    simp only [oneTime, this] at h
    cases h
  · rintro ⟨q, hq, hl⟩
    cases hs : Corr.select k.pixels im with
    | error e => exact ⟨(k, (bump k.c.n s.1, s.2)), e, by simp only [oneTime, hs]⟩
    | ok x =>
      exfalso
      have : ∀ (l : List ℕ) (x : Corr.Frame), Corr.select l im = .ok x → ∀ q ∈ l, q < im.length := by
        intro l
        induction l with
        | nil => intro _ _ q hq; cases hq
        | cons a l ih =>
          intro x h q hq
          unfold Corr.select at h ih
          simp only [List.mapM_cons, bind, Except.bind] at h
          cases ha : im[a]? with
          | none => rw [ha] at h; cases h
          | some v =>
            rw [ha] at h
            simp only at h
            split at h
            · cases h
            · rename_i v2 hl
              rcases List.mem_cons.1 hq with rfl | hq
              · exact (List.getElem?_eq_some_iff.1 ha).1
              · exact ih _ hl q hq
      have := this _ _ hs q hq
      omega

/-- C196 refuted: an image of another shape than the label array is used all the same if it has enough pixels; what lies
beyond the labels is ignored. -/
theorem C196_oversized_refuted (k : Conf) (s : Corr.St) (im extra : List (Option ℚ)) (h : ∀ q ∈ k.pixels, q < im.length) :
    oneTime.adv (k, s) () (im ++ extra) = oneTime.adv (k, s) () im ∧ ∃ s' o, oneTime.adv (k, s) () (im ++ extra) = (s', .ok o) := by
  have h1 := Corr.select_ok k.pixels im h
  have h2 := Corr.select_ok k.pixels (im ++ extra) (fun q hq => by rw [List.length_append]; have := h q hq; omega)
  have h3 : k.pixels.map (fun q => ((im ++ extra)[q]?).getD none) = k.pixels.map (fun q => (im[q]?).getD none) :=
    List.map_congr_left (fun q hq => by rw [List.getElem?_append_left (h q hq)])
  rw [h3] at h2
  simp only [oneTime, h1, h2]
  exact ⟨trivial, _, _, rfl⟩

/-- C196 refuted: dropping the image and continuing with the last yielded state gives another curve than without the image
(frames 1, 3, then an empty image, then 5). -/
theorem C196_bad_image_refuted :
    let w : World oneTime := ⟨[], []⟩
    let s : oneTime.Shared := (exConf, Corr.init exConf.c)
    (g2s (w.run [.start s (), .next 0 [some 1], .next 0 [some 3], .next 0 [], .resume 0 (), .next 1 [some 5]]).2)[3]? ≠
      (g2s (w.run [.start s (), .next 0 [some 1], .next 0 [some 3], .resume 0 (), .next 1 [some 5]]).2)[2]? := by
  decide +kernel

/-! Non-vacuity: two correlations run in turns. -/

example : let w : World oneTime := ⟨[], []⟩
    let s : oneTime.Shared := (exConf, Corr.init exConf.c)
    g2s (w.run [.start s (), .start s (), .next 0 [some 1], .next 1 [some 2], .next 0 [some 3], .next 1 [some 2]]).2 =
      [some [[some 1]], some [[some 1]], some [[some (5 / 4)], [some 1]], some [[some 1], [some 1]]] := by decide +kernel

end Verif.Gens
