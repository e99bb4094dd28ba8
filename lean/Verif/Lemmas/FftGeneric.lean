import Verif.Lemmas.FftBits
import Mathlib.Algebra.Group.Nat.Even

/-! # The radix 2 transform, with operations that satisfy no laws -/

set_option linter.unusedSectionVars false

noncomputable section

namespace Sp
variable {S : Type} [Zero S] [Add S] [Sub S] [Mul S] [Neg S] [Div S] [NatCast S] [OfNat S 2] [Trig S]

/-- The arrays with the real and imaginary parts. -/
def gbuf (N : Nat) (z : Nat → S × S) : CBufOf S := (tab N fun i => (z i).1, tab N fun i => (z i).2)

theorem gbuf_congr {N : Nat} {z z' : Nat → S × S} (h : ∀ i, i < N → z i = z' i) : gbuf N z = gbuf N z' := by
  rw [gbuf, gbuf]
  congr 1
  · exact tab_congr fun i hi => by rw [h i hi]
  · exact tab_congr fun i hi => by rw [h i hi]

theorem fftSwap_gtab {N i j : Nat} {f : Nat → S} (hi : i < N) (hj : j < N) :
    fftSwap (tab N f) i j = .ok (tab N fun k => if k = j then f i else if k = i then f j else f k) := by
  rw [fftSwap, rd_tab hi, rd_tab hj]
  simp only [ok_bind']
  rw [wr_tab _ hi]
  simp only [ok_bind']
  rw [wr_tab _ hj]

theorem permute_gbuf {N L : Nat} {z : Nat → S × S} (hL : L < 64) (hN : 2 ^ L ≤ N) :
    forRange 0 (2 ^ L) (fftPermuteBody L) (gbuf N z) = .ok (gbuf N fun a => if a < 2 ^ L then z (rev L a) else z a) := by
  have key := forRange_states (fun i => gbuf N fun a => if a < 2 ^ L ∧ (a < i ∨ rev L a < i) then z (rev L a) else z a)
    (Nat.zero_le (2 ^ L)) (body := fftPermuteBody L) (by
      intro i _ hi
      rw [fftPermuteBody, reverseBits_eq hL]
      simp only [ok_bind']
      have hj := rev_lt L i
      have hji := rev_rev L i hi
      have hrevj : ∀ a, a < 2 ^ L → rev L a = i → a = rev L i := by
        intro a ha h
        rw [← h, rev_rev L a ha]
      by_cases hij : rev L i > i
      · rw [if_pos hij, gbuf]
        dsimp only
        rw [fftSwap_gtab (by omega) (by omega), fftSwap_gtab (by omega) (by omega)]
        simp only [ok_bind', pure_eq_ok]
        congr 1
        refine Eq.trans ?_ (gbuf_congr (z := fun a => if a = rev L i then z i else if a = i then z (rev L i) else
          if a < 2 ^ L ∧ (a < i ∨ rev L a < i) then z (rev L a) else z a) ?_)
        · rw [gbuf]
          have e1 : ¬ (i < 2 ^ L ∧ (i < i ∨ rev L i < i)) := by omega
          have e2 : ¬ (rev L i < 2 ^ L ∧ (rev L i < i ∨ rev L (rev L i) < i)) := by rw [hji]; omega
          simp only [if_neg e1, if_neg e2]
          congr 1
          · exact tab_congr fun a _ => by split_ifs <;> rfl
          · exact tab_congr fun a _ => by split_ifs <;> rfl
        · intro a ha
          by_cases h1 : a = rev L i
          · subst h1
            rw [if_pos rfl, hji, if_pos ⟨hj, by omega⟩]
          · rw [if_neg h1]
            by_cases h2 : a = i
            · subst h2
              rw [if_pos rfl, if_pos ⟨hi, by omega⟩]
            · rw [if_neg h2]
              by_cases h3 : a < 2 ^ L
              · have h4 : rev L a ≠ i := fun h => h1 (hrevj a h3 h)
                exact if_congr (by omega) rfl rfl
              · rw [if_neg (by tauto), if_neg (by tauto)]
      · rw [if_neg hij]
        rw [pure_eq_ok]
        congr 1
        refine gbuf_congr fun a ha => ?_
        by_cases h3 : a < 2 ^ L
        · by_cases h1 : a = rev L i
          · subst h1
            rw [hji]
            by_cases h : rev L i = i
            · rw [h, ite_self, ite_self]
            · rw [if_pos ⟨hj, by omega⟩, if_pos ⟨hj, by omega⟩]
          · have h4 : rev L a ≠ i := fun h => h1 (hrevj a h3 h)
            by_cases h2 : a = i
            · subst h2
              rw [if_pos ⟨hi, by omega⟩, if_pos ⟨hi, by omega⟩]
            · exact if_congr (by omega) rfl rfl
        · rw [if_neg (by tauto), if_neg (by tauto)])
  refine Eq.trans ?_ (key.trans ?_)
  · congr 1
    exact gbuf_congr fun a _ => by rw [if_neg (by omega)]
  · congr 1
    refine gbuf_congr fun a _ => if_congr ?_ rfl rfl
    constructor
    · exact fun h => h.1
    · exact fun h => ⟨h, Or.inl h⟩

/-- Elements of the tables. -/
def gTable (n i : Nat) : S × S := (Trig.cos (2 * Trig.pi * i / n), Trig.sin (2 * Trig.pi * i / n))

theorem fftTable_geq (n T : Nat) :
    forRange 0 T (fftTableBody (S := S) n) (List.replicate T 0, List.replicate T 0) = .ok (gbuf T (gTable n)) := by
  have key := forRange_states (fun i => gbuf T fun a => if a < i then gTable n a else ((0, 0) : S × S)) (Nat.zero_le T)
    (body := fftTableBody n) (by
      intro i _ hi
      rw [fftTableBody, gbuf]
      dsimp only
      rw [wr_tab _ hi, wr_tab _ hi]
      simp only [ok_bind', pure_eq_ok]
      congr 1
      rw [gbuf]
      congr 1
      · refine tab_congr fun a _ => ?_
        by_cases h : a = i
        · subst h; rw [if_pos rfl, if_pos (by omega)]; rfl
        · rw [if_neg h]; exact congrArg Prod.fst (if_congr (by omega) rfl rfl)
      · refine tab_congr fun a _ => ?_
        by_cases h : a = i
        · subst h; rw [if_pos rfl, if_pos (by omega)]; rfl
        · rw [if_neg h]; exact congrArg Prod.snd (if_congr (by omega) rfl rfl))
  refine Eq.trans ?_ (key.trans ?_)
  · congr 1
    have h0 : List.replicate T (0 : S) = tab T fun _ => 0 := tab_replicate T 0
    rw [h0]
    rfl
  · congr 1
    exact gbuf_congr fun a h => by rw [if_pos h]

/-- The product with an element of the tables. -/
def gmul (q w : S × S) : S × S := (q.1 * w.1 + q.2 * w.2, -q.1 * w.2 + q.2 * w.1)

def gplus (p t : S × S) : S × S := (p.1 + t.1, p.2 + t.2)

def gminus (p t : S × S) : S × S := (p.1 - t.1, p.2 - t.2)

theorem butterfly_gbuf {T N H step i h : Nat} {w z : Nat → S × S} (hT : h * step < T) (hN : i + h + H < N) (hH : 0 < H) :
    fftButterfly (gbuf T w) H step i h (gbuf N z) =
      .ok (gbuf N fun a => if a = i + h then gplus (z (i + h)) (gmul (z (i + h + H)) (w (h * step)))
        else if a = i + h + H then gminus (z (i + h)) (gmul (z (i + h + H)) (w (h * step))) else z a) := by
  rw [fftButterfly, gbuf, gbuf]
  dsimp only
  rw [rd_tab hT, rd_tab hT, rd_tab hN, rd_tab hN]
  simp only [ok_bind']
  rw [rd_tab (by omega), rd_tab (by omega)]
  simp only [ok_bind']
  rw [wr_tab _ hN, wr_tab _ hN]
  simp only [ok_bind']
  rw [addAt_tab _ (by omega), addAt_tab _ (by omega)]
  simp only [ok_bind', pure_eq_ok]
  congr 1
  rw [gbuf]
  congr 1
  · refine tab_congr fun a _ => ?_
    by_cases h1 : a = i + h
    · rw [if_pos h1, if_neg (by omega), if_pos h1, h1]; rfl
    · rw [if_neg h1, if_neg h1]
      by_cases h2 : a = i + h + H
      · rw [if_pos h2, if_pos h2]; rfl
      · rw [if_neg h2, if_neg h2]
  · refine tab_congr fun a _ => ?_
    by_cases h1 : a = i + h
    · rw [if_pos h1, if_neg (by omega), if_pos h1, h1]; rfl
    · rw [if_neg h1, if_neg h1]
      by_cases h2 : a = i + h + H
      · rw [if_pos h2, if_pos h2]; rfl
      · rw [if_neg h2, if_neg h2]

theorem block_gbuf {T N H step b : Nat} {w z : Nat → S × S} (hT : H * step ≤ T) (hs : 0 < step) (hN : b * (2 * H) + 2 * H ≤ N) :
    fftBlock (gbuf T w) (2 * H) step b (gbuf N z) =
      .ok (gbuf N fun a =>
        if b * (2 * H) ≤ a ∧ a < b * (2 * H) + H then gplus (z a) (gmul (z (a + H)) (w ((a - b * (2 * H)) * step)))
        else if b * (2 * H) + H ≤ a ∧ a < b * (2 * H) + H + H then
          gminus (z (a - H)) (gmul (z a) (w ((a - H - b * (2 * H)) * step)))
        else z a) := by
  rw [fftBlock, Nat.mul_div_cancel_left H (by omega : 0 < 2)]
  generalize b * (2 * H) = i at *
  have key := forRange_states (fun h => gbuf N fun a =>
        if i ≤ a ∧ a < i + h then gplus (z a) (gmul (z (a + H)) (w ((a - i) * step)))
        else if i + H ≤ a ∧ a < i + H + h then
          gminus (z (a - H)) (gmul (z a) (w ((a - H - i) * step)))
        else z a) (Nat.zero_le H) (body := fftButterfly (gbuf T w) H step i) (by
      intro h _ hh
      have hstep : h * step < T := by
        have : (h + 1) * step ≤ H * step := Nat.mul_le_mul_right _ hh
        rw [Nat.add_mul] at this
        omega
      rw [butterfly_gbuf hstep (by omega) (by omega)]
      congr 1
      refine gbuf_congr fun a ha => ?_
      rw [if_neg (by omega : ¬ (i ≤ i + h ∧ i + h < i + h)), if_neg (by omega : ¬ (i + H ≤ i + h ∧ i + h < i + H + h)),
        if_neg (by omega : ¬ (i ≤ i + h + H ∧ i + h + H < i + h)),
        if_neg (by omega : ¬ (i + H ≤ i + h + H ∧ i + h + H < i + H + h))]
      by_cases h1 : a = i + h
      · subst h1
        rw [if_pos rfl, if_pos ⟨by omega, by omega⟩, Nat.add_sub_cancel_left]
      · rw [if_neg h1]
        by_cases h2 : a = i + h + H
        · subst h2
          rw [if_pos rfl, if_neg (by omega), if_pos ⟨by omega, by omega⟩, Nat.add_sub_cancel, Nat.add_sub_cancel_left]
        · rw [if_neg h2]
          exact if_congr (by omega) rfl (if_congr (by omega) rfl rfl))
  refine Eq.trans ?_ key
  congr 1
  exact gbuf_congr fun a _ => by rw [if_neg (by omega), if_neg (by omega)]

/-- One stage: all butterflies of one size, `H` half of the size. -/
def gbfly (H step : Nat) (w z : Nat → S × S) (a : Nat) : S × S :=
  if a % (2 * H) < H then gplus (z a) (gmul (z (a + H)) (w (a % (2 * H) * step)))
  else gminus (z (a - H)) (gmul (z a) (w ((a % (2 * H) - H) * step)))

theorem blocks_gbuf {N H step B : Nat} {w z : Nat → S × S} (hs : 0 < step) (hH : 0 < H) (hBN : B * (2 * H) ≤ N) :
    forRange 0 B (fftBlock (gbuf (H * step) w) (2 * H) step) (gbuf N z) =
      .ok (gbuf N fun a => if a < B * (2 * H) then gbfly H step w z a else z a) := by
  have key := forRange_states (fun b => gbuf N fun a => if a < b * (2 * H) then gbfly H step w z a else z a)
    (Nat.zero_le B) (body := fftBlock (gbuf (H * step) w) (2 * H) step) (by
      intro b _ hb
      have hb' : b * (2 * H) + 2 * H ≤ B * (2 * H) := by
        calc b * (2 * H) + 2 * H = (b + 1) * (2 * H) := by ring
          _ ≤ _ := Nat.mul_le_mul_right _ hb
      rw [block_gbuf le_rfl hs (by omega)]
      congr 1
      refine gbuf_congr fun a ha => ?_
      rw [Nat.add_mul, Nat.one_mul]
      by_cases h1 : b * (2 * H) ≤ a ∧ a < b * (2 * H) + 2 * H
      · have hm : a % (2 * H) = a - b * (2 * H) := by
          obtain ⟨r, rfl⟩ := Nat.exists_eq_add_of_le h1.1
          rw [Nat.add_sub_cancel_left, Nat.add_comm, Nat.add_mul_mod_self_right, Nat.mod_eq_of_lt (by omega)]
        rw [if_pos (by omega : a < b * (2 * H) + 2 * H), gbfly, hm]
        by_cases h2 : a - b * (2 * H) < H
        · rw [if_pos h2, if_pos ⟨by omega, by omega⟩, if_neg (by omega), if_neg (by omega)]
        · rw [if_neg h2, if_neg (by omega), if_pos ⟨by omega, by omega⟩, if_neg (by omega), if_neg (by omega),
            Nat.sub_right_comm]
      · rw [if_neg (by omega), if_neg (by omega)]
        exact if_congr (by omega) rfl rfl)
  refine Eq.trans ?_ key
  congr 1
  exact gbuf_congr fun a _ => by rw [if_neg (by omega)]

/-- A rule for the stages: what holds before the stage number `s` and is preserved by stages holds at the end. -/
theorem stages_gbuf {N L : Nat} {w : Nat → S × S} (P : Nat → (Nat → S × S) → Prop) (hL : L < 62) (hN : 2 ^ L ≤ N)
    (hstep : ∀ M s z, M + 1 + s = L → P s z → P (s + 1) fun a => if a < 2 ^ L then gbfly (2 ^ s) (2 ^ M) w z a else z a)
    (M s fuel : Nat) (hM : M + 1 + s = L) (hf : M < fuel) (z : Nat → S × S) (hz : P s z) :
    ∃ z', fftStages (gbuf (2 ^ L / 2) w) (2 ^ L) fuel (2 ^ (s + 1)) (gbuf N z) = .ok (gbuf N z') ∧ P L z' := by
  have step : ∀ M s z, M + 1 + s = L →
      forRange 0 ((2 ^ L + 2 ^ (s + 1) - 1) / 2 ^ (s + 1)) (fftBlock (gbuf (2 ^ L / 2) w) (2 ^ (s + 1)) (2 ^ L / 2 ^ (s + 1)))
        (gbuf N z) = .ok (gbuf N fun a => if a < 2 ^ L then gbfly (2 ^ s) (2 ^ M) w z a else z a) := by
    intro M s z hM
    have h2 : 2 ^ (s + 1) = 2 * 2 ^ s := by ring
    have hn : 2 ^ L = 2 * 2 ^ s * 2 ^ M := by rw [← hM, Nat.pow_add, Nat.pow_succ]; ring
    have hs := Nat.two_pow_pos s
    have hMp := Nat.two_pow_pos M
    have e1 : 2 ^ L / 2 ^ (s + 1) = 2 ^ M := by rw [hn, h2, Nat.mul_div_cancel_left _ (by omega)]
    have e2 : (2 ^ L + 2 ^ (s + 1) - 1) / 2 ^ (s + 1) = 2 ^ M := by
      rw [hn, h2, Nat.add_sub_assoc (by omega), Nat.mul_add_div (by omega), Nat.div_eq_of_lt (by omega), Nat.add_zero]
    have e3 : 2 ^ L / 2 = 2 ^ s * 2 ^ M := by
      rw [hn, Nat.mul_assoc, Nat.mul_div_cancel_left _ (by omega)]
    have e4 : 2 ^ M * (2 * 2 ^ s) = 2 ^ L := by rw [hn, Nat.mul_comm]
    have := blocks_gbuf (N := N) (H := 2 ^ s) (step := 2 ^ M) (B := 2 ^ M) (w := w) (z := z) hMp hs (by rw [e4]; exact hN)
    rw [e1, e2, e3, h2]
    rw [e4] at this
    rw [this]
  have hle : ∀ M s, M + 1 + s = L → 2 ^ (s + 1) ≤ 2 ^ L := fun M s h => Nat.pow_le_pow_right (by omega) (by omega)
  induction M generalizing s fuel z with
  | zero =>
    obtain ⟨fuel, rfl⟩ : ∃ f, fuel = f + 1 := ⟨fuel - 1, by omega⟩
    have hs : s + 1 = L := by omega
    have hp := hstep 0 s z hM hz
    rw [fftStages, if_pos (hle 0 s hM), step 0 s z hM]
    simp only [ok_bind']
    rw [hs, if_pos rfl, pure_eq_ok]
    rw [hs] at hp
    exact ⟨_, rfl, hp⟩
  | succ M ih =>
    obtain ⟨fuel, rfl⟩ : ∃ f, fuel = f + 1 := ⟨fuel - 1, by omega⟩
    rw [fftStages, if_pos (hle (M + 1) s hM), step (M + 1) s z hM]
    simp only [ok_bind']
    have hlt : 2 ^ (s + 1) < 2 ^ L := Nat.pow_lt_pow_right (by omega) (by omega)
    have hL' : 2 ^ L ≤ 2 ^ 62 := Nat.pow_le_pow_right (by omega) (by omega)
    rw [if_neg (by omega), Nat.mod_eq_of_lt (by omega), show 2 * 2 ^ (s + 1) = 2 ^ (s + 1 + 1) by ring]
    exact ih (s + 1) fuel (by omega) (by omega) _ (hstep (M + 1) s z hM hz)

/-- The radix 2 transform. -/
theorem fftRadix2_gbuf {N L : Nat} (P : Nat → (Nat → S × S) → Prop) (hL : L < 62) (hN : 2 ^ L ≤ N) (x : Nat → S × S)
    (h0 : P 0 fun a => if a < 2 ^ L then x (rev L a) else x a)
    (hstep : ∀ M s z, M + 1 + s = L → P s z → P (s + 1) fun a => if a < 2 ^ L then gbfly (2 ^ s) (2 ^ M) (gTable (2 ^ L)) z a else z a) :
    ∃ z, fftRadix2 (2 ^ L) (gbuf N x) = .ok (true, gbuf N z) ∧ P L z := by
  have hL' : 2 ^ L ≤ 2 ^ 61 := Nat.pow_le_pow_right (by omega) (by omega)
  rw [fftRadix2, fftLevels_pow]
  rw [Nat.one_shiftLeft, Nat.mod_eq_of_lt (by omega), if_neg (by omega), if_neg (by omega), fftTable_geq]
  simp only [ok_bind']
  rw [permute_gbuf (by omega) hN]
  simp only [ok_bind']
  rcases Nat.eq_zero_or_pos L with rfl | hpos
  · rw [fftStages, if_neg (by norm_num)]
    simp only [pure_eq_ok, ok_bind']
    exact ⟨_, rfl, h0⟩
  · obtain ⟨M, rfl⟩ : ∃ M, L = M + 1 := ⟨L - 1, by omega⟩
    obtain ⟨z, hz, hP⟩ := stages_gbuf P hL hN hstep M 0 64 rfl (by omega) _ h0
    rw [show 2 ^ (0 + 1) = 2 by norm_num] at hz
    rw [hz]
    exact ⟨z, rfl, hP⟩

end Sp
