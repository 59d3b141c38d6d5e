/- The ring-buffer cascade of correlation.py: after T frames, level l holds the latest of its T/2^l averaged frames. -/
import Verif.Corr.Model
import Mathlib.Tactic.Linarith
import Mathlib.Tactic.Ring
import Mathlib.Data.Nat.Log
import Mathlib.Algebra.Order.Ring.Nat
import Mathlib.Data.Nat.ModEq

namespace Verif.Corr
open Verif
variable {F A : Type}

/-- The k-th frame of level l of the stream f. -/
def X (av : F → F → F) (f : ℕ → F) : ℕ → ℕ → F
  | 0, k => f k
  | l + 1, k => av (X av f l (2 * k)) (X av f l (2 * k + 1))

/-- One level of the ring holds the latest frames of that level, N of them having been pushed. -/
def LevOk (n : ℕ) (Y : ℕ → F) (N : ℕ) (r : Ring F) (l : ℕ) : Prop :=
  r.img l = N ∧ r.cur l ≤ n ∧ r.cur l % n = (1 + N) % n ∧ ∀ k, k < N → N ≤ k + n → r.buf l ((k + 1) % n) = Y k

theorem slot_eq {n c N : ℕ} (hn : 0 < n) (hc : c ≤ n) (h : c % n = (1 + N) % n) : slot n c = N % n := by
  unfold slot
  split
  · next h0 =>
    subst h0
    rw [Nat.zero_mod] at h
    have h1 : (1 + N) % n = 0 := h.symm
    have h2 : N % n < n := Nat.mod_lt _ hn
    have h3 : (1 + N % n) % n = 0 := by rw [Nat.add_mod_mod]; exact h1
    by_contra hne
    have : 1 + N % n < n := by omega
    rw [Nat.mod_eq_of_lt this] at h3; omega
  · next h0 =>
    have h1 : c - 1 < n := by omega
    have h2 : (c - 1) ≡ N [MOD n] := by
      apply Nat.ModEq.add_right_cancel' 1
      show (c - 1 + 1) % n = (N + 1) % n
      rw [Nat.sub_add_cancel (by omega), h, Nat.add_comm]
    have h3 := h2
    unfold Nat.ModEq at h3
    rw [Nat.mod_eq_of_lt h1] at h3; exact h3

theorem prevSlot_eq {n c N : ℕ} (hn : 0 < n) (h : c % n = (1 + (N + 1)) % n) : prevSlot n c = N % n := by
  unfold prevSlot
  have h1 : ((c : ℤ) - 2) % n = ((N : ℕ) : ℤ) % n := by
    have : (c : ℤ) % n = ((1 + (N + 1) : ℕ) : ℤ) % n := by exact_mod_cast congrArg (Nat.cast : ℕ → ℤ) h
    rw [← Int.emod_sub_emod, this, Int.emod_sub_emod]
    congr 1; push_cast; ring
  have e : ((N : ℤ) % (n : ℤ)) = ((N % n : ℕ) : ℤ) := (Int.natCast_mod N n).symm
  rw [h1, e, Int.toNat_natCast]

theorem delay_eq {n N i : ℕ} (hn : 0 < n) (hi : i ≤ N) :
    ((((N % n : ℕ) : ℤ) - i) % n).toNat = (N - i) % n := by
  have h1 : (((N % n : ℕ) : ℤ) - i) % n = ((N - i : ℕ) : ℤ) % n := by
    rw [Nat.cast_sub hi]
    push_cast
    rw [Int.emod_sub_emod]
  have e : (((N - i : ℕ) : ℤ) % (n : ℤ)) = (((N - i) % n : ℕ) : ℤ) := (Int.natCast_mod (N - i) n).symm
  rw [h1, e, Int.toNat_natCast]

theorem levOk_init (n : ℕ) (hn : 0 < n) (z : F) (Y : ℕ → F) (l : ℕ) : LevOk n Y 0 (Ring.init z) l := by
  refine ⟨rfl, ?_, by simp [Ring.init], ?_⟩
  · show 1 ≤ n; omega
  · intro k hk; omega

theorem mod_inj_window {n a b : ℕ} (hn : 0 < n) (h : a % n = b % n) (h1 : a ≤ b) (h2 : b < a + n) : a = b := by
  have := (Nat.modEq_iff_dvd' h1).1 h
  obtain ⟨c, hc⟩ := this
  rcases Nat.eq_zero_or_pos c with h0 | h0
  · subst h0; omega
  · have : n ≤ n * c := Nat.le_mul_of_pos_right n h0
    omega

/-- Writing the next frame into the slot after the current one preserves the window. -/
theorem window_push {n N : ℕ} (hn : 0 < n) (b : ℕ → F) (Y : ℕ → F)
    (h : ∀ k, k < N → N ≤ k + n → b ((k + 1) % n) = Y k) :
    ∀ k, k < N + 1 → N + 1 ≤ k + n → (fun j => if j = (N + 1) % n then Y N else b j) ((k + 1) % n) = Y k := by
  intro k hk hk2
  by_cases hkN : k = N
  · subst hkN; simp
  · have : (k + 1) % n ≠ (N + 1) % n := by
      intro e
      have := mod_inj_window hn e (by omega) (by omega)
      omega
    simp only [this, if_false]
    exact h k (by omega) (by omega)

theorem push0_ok {n N : ℕ} (hn : 0 < n) (Y : ℕ → F) (r : Ring F) (h : LevOk n Y N r 0) :
    LevOk n Y (N + 1) (r.push0 n (Y N)) 0 := by
  obtain ⟨h1, h2, h3, h4⟩ := h
  have hcm : (1 + r.cur 0) % n % n = (1 + (N + 1)) % n := by
    rw [Nat.mod_mod, Nat.add_mod, h3, ← Nat.add_mod]; congr 1; omega
  have hs : slot n ((1 + r.cur 0) % n) = (N + 1) % n := slot_eq hn (Nat.mod_lt _ hn).le hcm
  refine ⟨by simp [Ring.push0, put1, h1], ?_, ?_, ?_⟩
  · simp only [Ring.push0, put1, if_true]; exact (Nat.mod_lt _ hn).le
  · simp only [Ring.push0, put1, if_true]; exact hcm
  · intro k hk hk2
    have := window_push hn (r.buf 0) Y h4 k hk hk2
    simp only [Ring.push0, put2, hs, true_and] at this ⊢
    exact this

theorem push0_other {n l N : ℕ} (Y : ℕ → F) (r : Ring F) (x : F) (hl : l ≠ 0) (h : LevOk n Y N r l) :
    LevOk n Y N (r.push0 n x) l := by
  obtain ⟨h1, h2, h3, h4⟩ := h
  refine ⟨by simp [Ring.push0, put1, hl, h1], by simp [Ring.push0, put1, hl, h2], by simp [Ring.push0, put1, hl, h3], ?_⟩
  intro k hk hk2
  simp only [Ring.push0, put2, hl, false_and, if_false]; exact h4 k hk hk2

theorem pushUp_ok {n l N : ℕ} (hn : 2 ≤ n) (av : F → F → F) (f : ℕ → F) (r : Ring F)
    (hlow : LevOk n (X av f l) (2 * N + 2) r l) (h : LevOk n (X av f (l + 1)) N r (l + 1)) :
    LevOk n (X av f (l + 1)) (N + 1) (r.pushUp av n (l + 1)) (l + 1) := by
  obtain ⟨h1, h2, h3, h4⟩ := h
  obtain ⟨g1, g2, g3, g4⟩ := hlow
  have hn0 : 0 < n := by omega
  have hcm : (1 + r.cur (l + 1) % n) % n = (1 + (N + 1)) % n := by
    rw [h3, Nat.add_mod, Nat.mod_mod, ← Nat.add_mod]; congr 1; omega
  have hcl : 1 + r.cur (l + 1) % n ≤ n := by have := Nat.mod_lt (r.cur (l + 1)) hn0; omega
  have hs : slot n (1 + r.cur (l + 1) % n) = (N + 1) % n := slot_eq hn0 hcl hcm
  have hcur : r.buf l (slot n (r.cur l)) = X av f l (2 * N + 1) := by
    rw [slot_eq hn0 g2 g3]; exact g4 (2 * N + 1) (by omega) (by omega)
  have hprev : r.buf l (prevSlot n (r.cur l)) = X av f l (2 * N) := by
    rw [prevSlot_eq (N := 2 * N + 1) hn0 g3]; exact g4 (2 * N) (by omega) (by omega)
  refine ⟨by simp [Ring.pushUp, put1, h1], ?_, ?_, ?_⟩
  · simpa only [Ring.pushUp, put1, if_true] using hcl
  · simpa only [Ring.pushUp, put1, if_true] using hcm
  · intro k hk hk2
    have := window_push hn0 (r.buf (l + 1)) (X av f (l + 1)) h4 k hk hk2
    simp only [Ring.pushUp, put2, hs, true_and, Nat.add_sub_cancel, hcur, hprev] at this ⊢
    exact this

theorem pushUp_other {n l l' N : ℕ} (av : F → F → F) (Y : ℕ → F) (r : Ring F) (hl : l ≠ l') (h : LevOk n Y N r l) :
    LevOk n Y N (r.pushUp av n l') l := by
  obtain ⟨h1, h2, h3, h4⟩ := h
  refine ⟨by simp [Ring.pushUp, put1, hl, h1], by simp [Ring.pushUp, put1, hl, h2],
    by simp [Ring.pushUp, put1, hl, h3], ?_⟩
  intro k hk hk2
  simp only [Ring.pushUp, put2, hl, false_and, if_false]; exact h4 k hk hk2

/-- Parity of a count as the track flag. -/
def oddB (m : ℕ) : Bool := decide (m % 2 = 1)

/-- The state of all levels between frames, T frames having been fed. -/
def RingOk (av : F → F → F) (f : ℕ → F) (L n T : ℕ) (r : Ring F) : Prop :=
  (∀ l, l < L → LevOk n (X av f l) (T / 2 ^ l) r l) ∧ ∀ l, l + 1 < L → r.track (l + 1) = oddB (T / 2 ^ l)

theorem div_succ_of_dvd {T m : ℕ} (hm : 0 < m) (h : m ∣ T + 1) : (T + 1) / m = T / m + 1 := by
  rw [Nat.succ_div_of_dvd h]

theorem div_succ_of_not_dvd {T m : ℕ} (h : ¬ m ∣ T + 1) : (T + 1) / m = T / m := by
  rw [Nat.succ_div_of_not_dvd h]

/-- The cascade, started at level l+1 after level l has received its new frame.  `P` is any property of the
accumulator relative to the numbers of frames processed on each level, preserved by `process` (which may look at the
ring of the level just pushed). -/
theorem cascade_ok {av : F → F → F} {f : ℕ → F} {L n T : ℕ} (hn : 2 ≤ n)
    (process : Ring F → ℕ → A → A) (P : (ℕ → ℕ) → A → Prop)
    (hP : ∀ (N : ℕ → ℕ) r l a, l < L → (l = 0 ∨ 2 * (N l + 1) ≤ N (l - 1)) →
      LevOk n (X av f l) (N l + 1) r l → P N a →
      P (fun j => if j = l then N l + 1 else N j) (process r l a))
    (fuel l : ℕ) (hfuel : fuel + l + 1 = L) (r : Ring F) (a : A)
    (hdvd : 2 ^ l ∣ T + 1)
    (hlow : ∀ j, j ≤ l → LevOk n (X av f j) ((T + 1) / 2 ^ j) r j)
    (hhigh : ∀ j, l < j → j < L → LevOk n (X av f j) (T / 2 ^ j) r j)
    (htl : ∀ j, j < l → j + 1 < L → r.track (j + 1) = oddB ((T + 1) / 2 ^ j))
    (hth : ∀ j, l ≤ j → j + 1 < L → r.track (j + 1) = oddB (T / 2 ^ j))
    (ha : P (fun j => if j ≤ l then (T + 1) / 2 ^ j else T / 2 ^ j) a) :
    RingOk av f L n (T + 1) (cascade av n process fuel (l + 1) (r, a)).1 ∧
    P (fun j => if j < L then (T + 1) / 2 ^ j else T / 2 ^ j) (cascade av n process fuel (l + 1) (r, a)).2 := by
  induction fuel generalizing l r a with
  | zero =>
    simp only [cascade]
    have hL : L = l + 1 := by omega
    subst hL
    refine ⟨⟨fun j hj => hlow j (by omega), fun j hj => htl j (by omega) hj⟩, ?_⟩
    have : (fun j => if j < l + 1 then (T + 1) / 2 ^ j else T / 2 ^ j) =
        (fun j => if j ≤ l then (T + 1) / 2 ^ j else T / 2 ^ j) := by
      funext j; by_cases h : j ≤ l
      · simp [h, Nat.lt_succ_of_le h]
      · have : ¬ j < l + 1 := by omega
        simp [h, this]
    rw [this]; exact ha
  | succ fuel ih =>
    simp only [cascade]
    have hpos : 0 < 2 ^ l := by positivity
    have hsucc := div_succ_of_dvd hpos hdvd
    have htr := hth l (le_refl _) (by omega)
    by_cases hodd : T / 2 ^ l % 2 = 1
    · have ht : r.track (l + 1) = true := by rw [htr]; simp [oddB, hodd]
      rw [if_neg (by simp [ht])]
      have hdvd' : 2 ^ (l + 1) ∣ T + 1 := by
        obtain ⟨c, hc⟩ := hdvd
        have : (T + 1) / 2 ^ l = c := by rw [hc]; exact Nat.mul_div_cancel_left c hpos
        have hc2 : c % 2 = 0 := by omega
        obtain ⟨e, he⟩ := Nat.dvd_of_mod_eq_zero hc2
        exact ⟨e, by rw [hc, he, pow_succ]; ring⟩
      have hsucc' := div_succ_of_dvd (by positivity) hdvd'
      have hhalf : (T + 1) / 2 ^ l = 2 * (T / 2 ^ (l + 1)) + 2 := by
        have e1 : (T + 1) / 2 ^ (l + 1) = (T + 1) / 2 ^ l / 2 := by rw [pow_succ, Nat.div_div_eq_div_mul]
        omega
      have hnew : LevOk n (X av f (l + 1)) (T / 2 ^ (l + 1) + 1) (r.pushUp av n (l + 1)) (l + 1) := by
        apply pushUp_ok hn av f r
        · rw [← hhalf]; exact hlow l (le_refl _)
        · exact hhigh (l + 1) (by omega) (by omega)
      apply ih (l + 1) (by omega) _ _ hdvd'
      · intro j hj
        by_cases hjl : j = l + 1
        · subst hjl; rw [hsucc']; exact hnew
        · exact pushUp_other av _ r hjl (hlow j (by omega))
      · intro j hj hjL
        exact pushUp_other av _ r (by omega) (hhigh j (by omega) hjL)
      · intro j hj hjL
        by_cases hjl : j = l
        · subst hjl
          simp only [Ring.pushUp, put1, if_true]
          rw [hsucc]; simp [oddB]; omega
        · have : j + 1 ≠ l + 1 := by omega
          simp only [Ring.pushUp, put1, this, if_false]; exact htl j (by omega) hjL
      · intro j hj hjL
        have : j + 1 ≠ l + 1 := by omega
        simp only [Ring.pushUp, put1, this, if_false]; exact hth j (by omega) hjL
      · have := hP (fun j => if j ≤ l then (T + 1) / 2 ^ j else T / 2 ^ j) (r.pushUp av n (l + 1)) (l + 1) a (by omega)
          (Or.inr (by simp [hhalf]; omega)) (by simpa using hnew) ha
        have e : (fun j => if j = l + 1 then (if l + 1 ≤ l then (T + 1) / 2 ^ (l + 1) else T / 2 ^ (l + 1)) + 1
            else if j ≤ l then (T + 1) / 2 ^ j else T / 2 ^ j) =
            (fun j => if j ≤ l + 1 then (T + 1) / 2 ^ j else T / 2 ^ j) := by
          funext j
          by_cases h1 : j = l + 1
          · subst h1; simp [hsucc']
          · by_cases h2 : j ≤ l
            · simp [h1, h2, Nat.le_succ_of_le h2]
            · have : ¬ j ≤ l + 1 := by omega
              simp [h1, h2, this]
        rw [e] at this; exact this
    · have ht : r.track (l + 1) = false := by rw [htr]; simp [oddB, hodd]
      rw [if_pos ht]
      have hndvd : ∀ j, l < j → ¬ 2 ^ j ∣ T + 1 := by
        intro j hj hd
        have hd' : 2 ^ (l + 1) ∣ T + 1 := dvd_trans (pow_dvd_pow 2 hj) hd
        obtain ⟨c, hc⟩ := hd'
        have : (T + 1) / 2 ^ l = 2 * c := by
          rw [hc, pow_succ, mul_assoc]; exact Nat.mul_div_cancel_left _ hpos
        omega
      refine ⟨⟨?_, ?_⟩, ?_⟩
      · intro j hj
        by_cases hjl : j ≤ l
        · exact hlow j hjl
        · rw [div_succ_of_not_dvd (hndvd j (by omega))]; exact hhigh j (by omega) hj
      · intro j hj
        by_cases hjl : j = l
        · subst hjl; simp only [put1, if_true]; rw [hsucc]; simp [oddB]; omega
        · have : j + 1 ≠ l + 1 := by omega
          simp only [put1, this, if_false]
          by_cases hlt : j < l
          · exact htl j hlt hj
          · rw [div_succ_of_not_dvd (hndvd j (by omega))]; exact hth j (by omega) hj
      · have e : (fun j => if j < L then (T + 1) / 2 ^ j else T / 2 ^ j) =
            (fun j => if j ≤ l then (T + 1) / 2 ^ j else T / 2 ^ j) := by
          funext j
          by_cases h1 : j ≤ l
          · have : j < L := by omega
            simp [h1, this]
          · simp only [h1, if_false]
            split
            · exact div_succ_of_not_dvd (hndvd j (by omega))
            · rfl
        rw [e]; exact ha

/-- One frame: ring invariant and accumulator property. -/
theorem feed_ok {av : F → F → F} {f : ℕ → F} {L n T : ℕ} (hn : 2 ≤ n) (hL : 1 ≤ L)
    (process : Ring F → ℕ → A → A) (P : (ℕ → ℕ) → A → Prop)
    (hP : ∀ (N : ℕ → ℕ) r l a, l < L → (l = 0 ∨ 2 * (N l + 1) ≤ N (l - 1)) →
      LevOk n (X av f l) (N l + 1) r l → P N a →
      P (fun j => if j = l then N l + 1 else N j) (process r l a))
    (hcongr : ∀ N N' a, (∀ l, l < L → N l = N' l) → P N a → P N' a)
    (s : Ring F × A) (hr : RingOk av f L n T s.1) (ha : P (fun l => T / 2 ^ l) s.2) :
    RingOk av f L n (T + 1) (feed av L n process s (f T)).1 ∧
    P (fun l => (T + 1) / 2 ^ l) (feed av L n process s (f T)).2 := by
  unfold feed
  have h0 : LevOk n (X av f 0) (T + 1) (s.1.push0 n (f T)) 0 := by
    have := hr.1 0 (by omega)
    rw [pow_zero, Nat.div_one] at this
    exact push0_ok (by omega) (X av f 0) s.1 this
  have := cascade_ok (T := T) (f := f) (av := av) (L := L) hn process P hP (L - 1) 0 (by omega) (s.1.push0 n (f T))
    (process (s.1.push0 n (f T)) 0 s.2) (by simp)
    (by intro j hj; have : j = 0 := by omega
        subst this; simpa using h0)
    (by intro j hj hjL; exact push0_other _ _ _ (by omega) (hr.1 j hjL))
    (by intro j hj; omega)
    (by intro j _ hjL; exact hr.2 j hjL)
    (by
      have h := hP (fun l => T / 2 ^ l) (s.1.push0 n (f T)) 0 s.2 (by omega) (Or.inl rfl) (by simpa using h0) ha
      have e : (fun j => if j = 0 then T / 2 ^ 0 + 1 else T / 2 ^ j) =
          (fun j => if j ≤ 0 then (T + 1) / 2 ^ j else T / 2 ^ j) := by
        funext j; by_cases hj : j = 0
        · subst hj; simp
        · have : ¬ j ≤ 0 := by omega
          simp [hj]
      rw [e] at h; exact h)
  refine ⟨this.1, hcongr _ _ _ ?_ this.2⟩
  intro l hl; simp [hl]

/-- T frames from the initial ring. -/
theorem feeds_ok {av : F → F → F} {f : ℕ → F} {L n : ℕ} (hn : 2 ≤ n) (hL : 1 ≤ L) (z : F)
    (process : Ring F → ℕ → A → A) (P : (ℕ → ℕ) → A → Prop)
    (hP : ∀ (N : ℕ → ℕ) r l a, l < L → (l = 0 ∨ 2 * (N l + 1) ≤ N (l - 1)) →
      LevOk n (X av f l) (N l + 1) r l → P N a →
      P (fun j => if j = l then N l + 1 else N j) (process r l a))
    (hcongr : ∀ N N' a, (∀ l, l < L → N l = N' l) → P N a → P N' a)
    (a0 : A) (ha : P (fun _ => 0) a0) (T : ℕ) :
    RingOk av f L n T (((List.range T).map f).foldl (feed av L n process) (Ring.init z, a0)).1 ∧
    P (fun l => T / 2 ^ l) (((List.range T).map f).foldl (feed av L n process) (Ring.init z, a0)).2 := by
  induction T with
  | zero =>
    simp only [List.range_zero, List.map_nil, List.foldl_nil, Nat.zero_div]
    exact ⟨⟨fun l _ => by rw [Nat.zero_div]; exact levOk_init n (by omega) z _ l, fun l _ => by simp [Ring.init, oddB]⟩, ha⟩
  | succ T ih =>
    rw [List.range_succ, List.map_append, List.foldl_append]
    exact feed_ok hn hL process P hP hcongr _ ih.1 ih.2

end Verif.Corr
