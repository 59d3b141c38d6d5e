/- C239: what the speckle visibility of a region depends on. -/
import Verif.Speckle.Top

namespace Verif.Speckle
open Verif Finset

/-! ## specification side -/

/-- Pixel q of region x in the first label image is pixel `e q` of region x' in the second one, and these are all pixels of
region x'. -/
def Spec.SameRegion (labels : List ℤ) (x : ℤ) (labels' : List ℤ) (x' : ℤ) (e : ℕ → ℕ) : Prop :=
  (∀ q, labels[q]? = some x → labels'[e q]? = some x') ∧
  (∀ q₁ q₂, labels[q₁]? = some x → labels[q₂]? = some x → e q₁ = e q₂ → q₁ = q₂) ∧
  ∀ q', labels'[q']? = some x' → ∃ q, labels[q]? = some x ∧ e q = q'

/-- Image by image: the same values in the region, and NaN somewhere in a region in both or in none. -/
def Spec.SameImages (labels : List ℤ) (x : ℤ) (labels' : List ℤ) (e : ℕ → ℕ) (imgs imgs' : List (List (Option ℚ))) : Prop :=
  List.Forall₂ (fun img img' => (∀ q, labels[q]? = some x → img'[e q]? = img[q]?) ∧ Spec.isBad labels img = Spec.isBad labels' img')
    imgs imgs'

/-! ## the two computations run in step -/

section
variable {P P' : ℕ} (Z : List (Fin P × Fin P'))

/-- Two frames agree on the paired pixels, and both or none are bad. -/
def FR (f : Fr P) (f' : Fr P') : Prop := (∀ z ∈ Z, f' z.2 = f z.1) ∧ f'.bad = f.bad

theorem add_bad {P : ℕ} (a b : Fr P) : (a.add b).bad = (a.bad || b.bad) := by
  unfold Fr.bad
  rw [Bool.eq_iff_iff, Bool.or_eq_true, List.any_eq_true, List.any_eq_true, List.any_eq_true]
  have h : ∀ p, ((a.add b) p).isNone = ((a p).isNone || (b p).isNone) := by
    intro p
    unfold Fr.add
    cases a p <;> cases b p <;> rfl
  constructor
  · rintro ⟨p, hp, hb⟩
    rw [h, Bool.or_eq_true] at hb
    rcases hb with hb | hb
    · exact Or.inl ⟨p, hp, hb⟩
    · exact Or.inr ⟨p, hp, hb⟩
  · rintro (⟨p, hp, hb⟩ | ⟨p, hp, hb⟩)
    · exact ⟨p, hp, by rw [h, hb]; rfl⟩
    · exact ⟨p, hp, by rw [h, hb, Bool.or_true]⟩

theorem FR.add {a b : Fr P} {a' b' : Fr P'} (h1 : FR Z a a') (h2 : FR Z b b') : FR Z (a.add b) (a'.add b') := by
  refine ⟨fun z hz => ?_, by rw [add_bad, add_bad, h1.2, h2.2]⟩
  unfold Fr.add
  rw [h1.1 z hz, h2.1 z hz]

/-- The pairs list the pixels with label r once on the left and those with label r' once on the right. -/
structure Pairs (labels : Fin P → ℕ) (r : ℕ) (labels' : Fin P' → ℕ) (r' : ℕ) : Prop where
  left : Z.map Prod.fst = (List.finRange P).filter (fun p => labels p = r)
  right : (Z.map Prod.snd).Perm ((List.finRange P').filter (fun p => labels' p = r'))

variable {labels : Fin P → ℕ} {r : ℕ} {labels' : Fin P' → ℕ} {r' : ℕ}

theorem roi_perm (hZ : Pairs Z labels r labels' r') {f : Fr P} {f' : Fr P'} (h : FR Z f f') :
    (roiData labels' r' f').Perm (roiData labels r f) := by
  unfold roiData
  refine (hZ.right.symm.filterMap f').trans ?_
  rw [← hZ.left, List.filterMap_map, List.filterMap_map]
  have : Z.filterMap (f' ∘ Prod.snd) = Z.filterMap (f ∘ Prod.fst) := List.filterMap_congr (fun z hz => h.1 z hz)
  rw [this]

theorem hist_eq (hZ : Pairs Z labels r labels' r') {f : Fr P} {f' : Fr P'} (h : FR Z f f') (E b : ℕ) :
    speHist E (roiData labels' r' f') b = speHist E (roiData labels r f) b := by
  unfold speHist
  rw [(roi_perm Z hZ h).countP_eq, (roi_perm Z hZ h).countP_eq]

/-- The working arrays correspond. -/
structure Sim (r r' : ℕ) (st : XState P) (st' : XState P') : Prop where
  buf : ∀ l i, FR Z (st.buf l i) (st'.buf l i)
  cur : st'.cur = st.cur
  trackLevel : st'.trackLevel = st.trackLevel
  trackBad : st'.trackBad = st.trackBad
  imgPer : st'.imgPer = st.imgPer
  prob : ∀ l b, st'.prob l r' b = st.prob l r b
  probPow : ∀ l b, st'.probPow l r' b = st.probPow l r b

theorem sim_init (r r' tb : ℕ) : Sim Z r r' (XState.init P tb) (XState.init P' tb) := by
  refine ⟨fun l i => ⟨fun _ _ => rfl, ?_⟩, rfl, rfl, rfl, rfl, fun _ _ => rfl, fun _ _ => rfl⟩
  have hb : ∀ Q : ℕ, Fr.bad (fun _ : Fin Q => some (0 : ℚ)) = false := by
    intro Q
    unfold Fr.bad
    rw [List.any_eq_false]
    intro _ _; simp
  exact (hb P').trans (hb P).symm

theorem sim_process (hZ : Pairs Z labels r labels' r') {st : XState P} {st' : XState P'} (h : Sim Z r r' st st') (m level bufNo : ℕ) :
    Sim Z r r' (process labels m level bufNo st) (process labels' m level bufNo st') := by
  have hb := (h.buf level bufNo).2
  unfold process
  simp only [hb, h.imgPer, h.trackBad]
  split
  · exact ⟨h.buf, h.cur, h.trackLevel, rfl, rfl, h.prob, h.probPow⟩
  · refine ⟨h.buf, h.cur, h.trackLevel, rfl, rfl, ?_, ?_⟩
    · intro l b
      simp only
      by_cases hl : l = level
      · subst hl
        simp only [Function.update_self]
        rw [h.prob, hist_eq Z hZ (h.buf l bufNo)]
      · rw [Function.update_of_ne hl, Function.update_of_ne hl, h.prob]
    · intro l b
      simp only
      by_cases hl : l = level
      · subst hl
        simp only [Function.update_self]
        rw [h.probPow, hist_eq Z hZ (h.buf l bufNo)]
      · rw [Function.update_of_ne hl, Function.update_of_ne hl, h.probPow]

theorem buf_update {buf : ℕ → ℕ → Fr P} {buf' : ℕ → ℕ → Fr P'} (h : ∀ l i, FR Z (buf l i) (buf' l i)) (level n : ℕ) {f : Fr P}
    {f' : Fr P'} (hf : FR Z f f') (l i : ℕ) :
    FR Z (Function.update buf level (Function.update (buf level) n f) l i)
      (Function.update buf' level (Function.update (buf' level) n f') l i) := by
  by_cases hl : l = level
  · subst hl
    rw [Function.update_self, Function.update_self]
    by_cases hi : i = n
    · subst hi; rw [Function.update_self, Function.update_self]; exact hf
    · rw [Function.update_of_ne hi, Function.update_of_ne hi]; exact h l i
  · rw [Function.update_of_ne hl, Function.update_of_ne hl]; exact h l i

theorem sim_loop (hZ : Pairs Z labels r labels' r') (m tb numTimes : ℕ) : ∀ (fuel level : ℕ) {st : XState P} {st' : XState P'},
    Sim Z r r' st st' → Sim Z r r' (levelLoop labels m tb numTimes fuel level st) (levelLoop labels' m tb numTimes fuel level st') := by
  intro fuel
  induction fuel with
  | zero => intro level st st' h; exact h
  | succ fuel ih =>
    intro level st st' h
    unfold levelLoop
    by_cases hl : level < numTimes
    · rw [if_pos hl, if_pos hl]
      by_cases ht : st.trackLevel level = false
      · rw [if_pos ht, if_pos (by rw [h.trackLevel]; exact ht)]
        apply ih
        exact ⟨h.buf, h.cur, by simp only [h.trackLevel], h.trackBad, h.imgPer, h.prob, h.probPow⟩
      · rw [if_neg ht, if_neg (by rw [h.trackLevel]; exact ht)]
        simp only [h.cur]
        apply ih
        apply sim_process Z hZ
        exact ⟨buf_update Z h.buf level _ ((h.buf _ _).add Z (h.buf _ _)), rfl, by simp only [h.trackLevel], h.trackBad, h.imgPer,
          h.prob, h.probPow⟩
    · rw [if_neg hl, if_neg hl]; exact h

theorem sim_frame (hZ : Pairs Z labels r labels' r') (m tb numTimes : ℕ) {st : XState P} {st' : XState P'} (h : Sim Z r r' st st')
    {f : Fr P} {f' : Fr P'} (hf : FR Z f f') :
    Sim Z r r' (xsvsFrame labels m tb numTimes st f) (xsvsFrame labels' m tb numTimes st' f') := by
  unfold xsvsFrame
  simp only [h.cur]
  apply sim_loop Z hZ
  apply sim_process Z hZ
  exact ⟨buf_update Z h.buf 0 _ hf, rfl, h.trackLevel, h.trackBad, h.imgPer, h.prob, h.probPow⟩

/-- The averages over the sets correspond. -/
def AccR (r r' : ℕ) (a a' : Acc) : Prop := (∀ l b, a'.1 l r' b = a.1 l r b) ∧ ∀ l b, a'.2 l r' b = a.2 l r b

theorem sim_set (hZ : Pairs Z labels r labels' r') (m tb numTimes i : ℕ) {a a' : Acc} (ha : AccR r r' a a')
    {fs : List (Fr P)} {fs' : List (Fr P')} (hfs : List.Forall₂ (FR Z) fs fs') :
    AccR r r' (xsvsSet labels m tb numTimes i a fs) (xsvsSet labels' m tb numTimes i a' fs') := by
  unfold xsvsSet
  have key : ∀ {st : XState P} {st' : XState P'}, Sim Z r r' st st' → ∀ {a a' : Acc}, AccR r r' a a' →
      AccR r r' (fs.foldl (fun (s : XState P × Acc) f =>
          (xsvsFrame labels m tb numTimes s.1 f, accStep i s.2 (xsvsFrame labels m tb numTimes s.1 f))) (st, a)).2
        (fs'.foldl (fun (s : XState P' × Acc) f =>
          (xsvsFrame labels' m tb numTimes s.1 f, accStep i s.2 (xsvsFrame labels' m tb numTimes s.1 f))) (st', a')).2 := by
    induction hfs with
    | nil => intro st st' _ a a' ha; exact ha
    | cons hf _ ih =>
      intro st st' hs a a' ha
      rw [List.foldl_cons, List.foldl_cons]
      have h1 := sim_frame Z hZ m tb numTimes hs hf
      apply ih h1
      unfold accStep
      refine ⟨fun l b => ?_, fun l b => ?_⟩
      · simp only; rw [ha.1, h1.prob]
      · simp only; rw [ha.2, h1.probPow]
  exact key (sim_init Z r r' tb) ha

theorem sim_all (hZ : Pairs Z labels r labels' r') (m tb numTimes : ℕ) {sets : List (List (Fr P))} {sets' : List (List (Fr P'))}
    (h : List.Forall₂ (List.Forall₂ (FR Z)) sets sets') :
    AccR r r' (xsvsAll labels m tb numTimes sets) (xsvsAll labels' m tb numTimes sets') := by
  unfold xsvsAll
  have key : ∀ (n : ℕ) {a a' : Acc}, AccR r r' a a' →
      AccR r r' (sets.foldl (fun (s : ℕ × Acc) fs => (s.1 + 1, xsvsSet labels m tb numTimes s.1 s.2 fs)) (n, a)).2
        (sets'.foldl (fun (s : ℕ × Acc) fs => (s.1 + 1, xsvsSet labels' m tb numTimes s.1 s.2 fs)) (n, a')).2 := by
    induction h with
    | nil => intro n a a' ha; exact ha
    | cons hf _ ih =>
      intro n a a' ha
      rw [List.foldl_cons, List.foldl_cons]
      exact ih (n + 1) (sim_set Z hZ m tb numTimes n ha hf)
  exact key 0 ⟨fun _ _ => rfl, fun _ _ => rfl⟩

theorem sim_reached (hZ : Pairs Z labels r labels' r') (m tb numTimes l : ℕ) {sets : List (List (Fr P))} {sets' : List (List (Fr P'))}
    (h : List.Forall₂ (List.Forall₂ (FR Z)) sets sets') :
    reached labels' m tb numTimes l sets' = reached labels m tb numTimes l sets := by
  unfold reached
  induction h with
  | nil => rfl
  | cons hf _ ih =>
    rw [List.any_cons, List.any_cons, ih]
    congr 1
    have key : ∀ {fs : List (Fr P)} {fs' : List (Fr P')}, List.Forall₂ (FR Z) fs fs' → ∀ {st : XState P} {st' : XState P'},
        Sim Z r r' st st' → Sim Z r r' (fs.foldl (xsvsFrame labels m tb numTimes) st) (fs'.foldl (xsvsFrame labels' m tb numTimes) st') := by
      intro fs fs' hfs
      induction hfs with
      | nil => intro st st' hs; exact hs
      | cons hf _ ih => intro st st' hs; rw [List.foldl_cons, List.foldl_cons]; exact ih (sim_frame Z hZ m tb numTimes hs hf)
    have hk := key hf (sim_init Z r r' tb)
    simp only [hk.trackBad, hk.imgPer]

end

/-! ## pairing the pixels of the two label images -/

theorem index_of (labels : List ℤ) (x : ℤ) (hx : 0 < x) (q : ℕ) (hq : labels[q]? = some x) :
    ∃ p : Fin (Corr.extractLabelIndices labels).2.length, (Corr.extractLabelIndices labels).2[p] = q ∧ labelsOf labels p = x.toNat := by
  obtain ⟨h1, h2⟩ := List.getElem?_eq_some_iff.1 hq
  obtain ⟨p, hp, e⟩ := List.getElem_of_mem ((mem_indices labels q).2 ⟨h1, by rw [h2]; exact hx⟩)
  refine ⟨⟨p, hp⟩, e, ?_⟩
  unfold labelsOf
  simp only
  rw [label_at labels p hp, e, hq]
  rfl

theorem label_of (labels : List ℤ) (x : ℤ) (hx : 0 < x) (p : Fin (Corr.extractLabelIndices labels).2.length)
    (hp : labelsOf labels p = x.toNat) : labels[(Corr.extractLabelIndices labels).2[p]]? = some x := by
  have hm : (Corr.extractLabelIndices labels).2[p] ∈ (Corr.extractLabelIndices labels).2 := List.getElem_mem _
  obtain ⟨h1, h2⟩ := (mem_indices labels _).1 hm
  unfold labelsOf at hp
  rw [label_at labels p p.2] at hp
  have e : (Corr.extractLabelIndices labels).2[(p : ℕ)] = (Corr.extractLabelIndices labels).2[p] := rfl
  rw [e, List.getElem?_eq_getElem h1] at hp
  rw [List.getElem?_eq_getElem h1]
  simp only [Option.getD_some] at hp
  congr 1
  omega

theorem nodup_indices (labels : List ℤ) : (Corr.extractLabelIndices labels).2.Nodup := by
  simp only [Corr.extractLabelIndices]
  exact List.nodup_range.filter _

theorem pairs_exist (labels : List ℤ) (x : ℤ) (hx : 0 < x) (labels' : List ℤ) (x' : ℤ) (hx' : 0 < x') (e : ℕ → ℕ)
    (h : Spec.SameRegion labels x labels' x' e) :
    ∃ Z : List (Fin (Corr.extractLabelIndices labels).2.length × Fin (Corr.extractLabelIndices labels').2.length),
      Pairs Z (labelsOf labels) x.toNat (labelsOf labels') x'.toNat ∧
      ∀ z ∈ Z, labels[(Corr.extractLabelIndices labels).2[z.1]]? = some x ∧
        (Corr.extractLabelIndices labels').2[z.2] = e (Corr.extractLabelIndices labels).2[z.1] := by
  obtain ⟨L, hL⟩ : ∃ L, L = (List.finRange (Corr.extractLabelIndices labels).2.length).filter (fun p => labelsOf labels p = x.toNat) := ⟨_, rfl⟩
  have hex : ∀ p ∈ L,
      ∃ p' : Fin (Corr.extractLabelIndices labels').2.length,
        (Corr.extractLabelIndices labels').2[p'] = e (Corr.extractLabelIndices labels).2[p] ∧ labelsOf labels' p' = x'.toNat := by
    intro p hp
    rw [hL, List.mem_filter, decide_eq_true_eq] at hp
    exact index_of labels' x' hx' _ (h.1 _ (label_of labels x hx p hp.2))
  choose ε hε1 hε2 using hex
  have hLm : ∀ p, p ∈ L ↔ labelsOf labels p = x.toNat := by
    intro p; rw [hL, List.mem_filter, decide_eq_true_eq]; simp
  have hndL : L.Nodup := by rw [hL]; exact (List.nodup_finRange _).filter _
  refine ⟨L.attach.map (fun p => (p.1, ε p.1 p.2)), ⟨?_, ?_⟩, ?_⟩
  · rw [List.map_map]
    rw [← hL]
    exact List.attach_map_subtype_val L
  · rw [List.map_map, List.perm_ext_iff_of_nodup]
    · intro p'
      rw [List.mem_map, List.mem_filter, decide_eq_true_eq]
      constructor
      · rintro ⟨p, _, rfl⟩
        exact ⟨List.mem_finRange _, hε2 p.1 p.2⟩
      · rintro ⟨_, hp'⟩
        obtain ⟨q, hq1, hq2⟩ := h.2.2 _ (label_of labels' x' hx' p' hp')
        obtain ⟨p, hp1, hp2⟩ := index_of labels x hx q hq1
        have hpm := (hLm p).2 hp2
        refine ⟨⟨p, hpm⟩, List.mem_attach _ _, ?_⟩
        simp only [Function.comp]
        have := hε1 p hpm
        rw [hp1, hq2] at this
        exact Fin.ext ((nodup_indices labels').getElem_inj_iff.1 this)
    · rw [List.nodup_map_iff_inj_on (List.nodup_attach.2 hndL)]
      intro a _ b _ hab
      simp only [Function.comp] at hab
      have h1 := hε1 a.1 a.2
      rw [hab, hε1 b.1 b.2] at h1
      have := h.2.1 _ _ (label_of labels x hx b.1 ((hLm _).1 b.2)) (label_of labels x hx a.1 ((hLm _).1 a.2)) h1
      exact Subtype.ext (Fin.ext ((nodup_indices labels).getElem_inj_iff.1 this.symm))
    · exact (List.nodup_finRange _).filter _
  · intro z hz
    rw [List.mem_map] at hz
    obtain ⟨p, _, rfl⟩ := hz
    exact ⟨label_of labels x hx p.1 ((hLm _).1 p.2), hε1 p.1 p.2⟩

/-! ## C239 -/

/-- C239: what xsvs reports for a region (every integration time, every number of counts) depends only on the values of its
own pixels - not on where they lie in the image, how they are ordered, which number the region carries, or on the other regions -
provided the same images have NaN somewhere in a region. -/
theorem C239_region_only_partial (sets sets' : List ImageSet) (labels labels' : List ℤ)
    (hsz : ∀ s ∈ sets, ∀ img ∈ s.images, labels.length ≤ img.length)
    (hsz' : ∀ s ∈ sets', ∀ img ∈ s.images, labels'.length ≤ img.length) (N tb m : ℕ) (htb : 2 ≤ tb) (x x' : ℤ) (hx : 0 < x)
    (hx' : 0 < x') (hm : x ∈ labels) (e : ℕ → ℕ) (hr : Spec.SameRegion labels x labels' x' e)
    (hi : List.Forall₂ (fun s s' => Spec.SameImages labels x labels' e s.images s'.images) sets sets') :
    ∃ tab tab', xsvs sets labels N tb (some m) = some (.ok tab) ∧ xsvs sets' labels' N tb (some m) = some (.ok tab') ∧
      tab.length = tab'.length ∧
      ∀ (k : ℕ) row row', tab[k]? = some row → tab'[k]? = some row' →
        ∃ cell, row[Corr.Spec.column labels x]? = some cell ∧ row'[Corr.Spec.column labels' x']? = some cell := by
  obtain ⟨s, hs, -, -, -⟩ := series_some N tb htb
  have hm' : x' ∈ labels' := by
    obtain ⟨q, hq⟩ := List.mem_iff_getElem?.1 hm
    exact List.mem_of_getElem? (hr.1 q hq)
  refine ⟨_, _, body_eq sets labels hsz N tb m s hs, body_eq sets' labels' hsz' N tb m s hs, by simp [table], ?_⟩
  obtain ⟨Z, hZ, hz⟩ := pairs_exist labels x hx labels' x' hx' e hr
  have hF : List.Forall₂ (List.Forall₂ (FR Z)) ((sets.map ImageSet.images).map (fun l => l.map (frameFn labels)))
      ((sets'.map ImageSet.images).map (fun l => l.map (frameFn labels'))) := by
    rw [List.map_map, List.map_map, List.forall₂_map_left_iff, List.forall₂_map_right_iff]
    have : List.Forall₂ (fun s s' => (∀ img ∈ s.images, labels.length ≤ img.length) ∧ (∀ img ∈ s'.images, labels'.length ≤ img.length) ∧
        Spec.SameImages labels x labels' e s.images s'.images) sets sets' := by
      clear hs hm'
      induction hi with
      | nil => exact List.Forall₂.nil
      | cons h _ ih =>
        exact List.Forall₂.cons ⟨hsz _ (by simp), hsz' _ (by simp), h⟩
          (ih (fun s hs => hsz s (by simp [hs])) (fun s hs => hsz' s (by simp [hs])))
    refine this.imp ?_
    rintro st st' ⟨h1, h2, h3⟩
    simp only [Function.comp]
    rw [List.forall₂_map_left_iff, List.forall₂_map_right_iff]
    unfold Spec.SameImages at h3
    generalize st.images = I at h1 h3
    generalize st'.images = I' at h2 h3
    induction h3 with
    | nil => exact List.Forall₂.nil
    | cons h _ ih =>
      refine List.Forall₂.cons ⟨?_, ?_⟩ (ih (fun i hi => h1 i (by simp [hi])) (fun i hi => h2 i (by simp [hi])))
      · intro z hzm
        unfold frameFn
        rw [(hz z hzm).2, h.1 _ (hz z hzm).1]
      · rw [bad_iff labels' _ (h2 _ (by simp)) _ (frameOf_ok labels' _ (h2 _ (by simp))),
          bad_iff labels _ (h1 _ (by simp)) _ (frameOf_ok labels _ (h1 _ (by simp))), h.2]
  intro k row row' hrow hrow'
  unfold table at hrow hrow'
  simp only [List.getElem?_map] at hrow hrow'
  rw [Option.map_eq_some_iff] at hrow hrow'
  obtain ⟨k1, hk1, rfl⟩ := hrow
  obtain ⟨k2, hk2, rfl⟩ := hrow'
  have hkk : k2 = k1 := by rw [hk1] at hk2; exact (Option.some.inj hk2).symm
  subst hkk
  have hA := sim_all Z hZ m tb s.length hF
  have hR := sim_reached Z hZ m tb s.length k2 hF
  simp only [List.getElem?_map, unique_column labels x hx hm, unique_column labels' x' hx' hm', Option.map_some, hR, hA.1, hA.2]
  exact ⟨_, rfl, rfl⟩

set_option synthInstance.maxSize 10000 in
set_option synthInstance.maxHeartbeats 200000 in
/-- C239 is false without that proviso: NaN in another region makes xsvs drop the whole image, so the distribution of a region
whose own pixels are all good changes. -/
theorem C239_region_only_refuted :
    xsvs [⟨[[some 1, some 0], [some 2, some 0]], false⟩] [1, 2] 2 2 (some 4) =
      some (.ok [[some [(0, 0), (1 / 2, 1 / 2), (1 / 2, 1 / 2)], some [(1, 1), (0, 0), (0, 0)]]]) ∧
    xsvs [⟨[[some 1, some 0], [some 2, none]], false⟩] [1, 2] 2 2 (some 4) =
      some (.ok [[some [(0, 0), (1, 1), (0, 0)], some [(1, 1), (0, 0), (0, 0)]]]) := by
  decide +kernel

/-- Two pixels of region 2, given in another order as region 5 with a further region beside them. -/
example : Spec.SameRegion [0, 2, 2] 2 [5, 1, 5] 5 (fun q => if q = 1 then 2 else 0) ∧
    Spec.SameImages [0, 2, 2] 2 [5, 1, 5] (fun q => if q = 1 then 2 else 0) [[some 9, some 3, some 4]] [[some 4, some 7, some 3]] := by
  refine ⟨⟨?_, ?_, ?_⟩, ?_⟩
  · intro q hq
    have : q < 3 := (List.getElem?_eq_some_iff.1 hq).1
    have : q = 0 ∨ q = 1 ∨ q = 2 := by omega
    rcases this with rfl | rfl | rfl <;> simp_all
  · intro q r hq hr
    have h1 : q < 3 := (List.getElem?_eq_some_iff.1 hq).1
    have h2 : r < 3 := (List.getElem?_eq_some_iff.1 hr).1
    have a : q = 0 ∨ q = 1 ∨ q = 2 := by omega
    have b : r = 0 ∨ r = 1 ∨ r = 2 := by omega
    rcases a with rfl | rfl | rfl <;> rcases b with rfl | rfl | rfl <;> simp_all
  · intro q hq
    have : q < 3 := (List.getElem?_eq_some_iff.1 hq).1
    have : q = 0 ∨ q = 1 ∨ q = 2 := by omega
    rcases this with rfl | rfl | rfl
    · exact ⟨2, rfl, rfl⟩
    · simp at hq
    · exact ⟨1, rfl, rfl⟩
  · refine List.Forall₂.cons ⟨?_, by decide⟩ List.Forall₂.nil
    intro q hq
    have : q < 3 := (List.getElem?_eq_some_iff.1 hq).1
    have : q = 0 ∨ q = 1 ∨ q = 2 := by omega
    rcases this with rfl | rfl | rfl <;> simp_all

end Verif.Speckle
