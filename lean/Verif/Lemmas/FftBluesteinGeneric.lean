import Verif.Lemmas.FftGeneric

/-! # The Bluestein transform, with operations that satisfy no laws -/

set_option linter.unusedSectionVars false

noncomputable section

namespace Sp
variable {S : Type} [Zero S] [Add S] [Sub S] [Mul S] [Neg S] [Div S] [NatCast S] [OfNat S 2] [Trig S]

/-- The pair with the elements exchanged. -/
def gswap (v : S × S) : S × S := (v.2, v.1)

theorem gbuf_swap (N : Nat) (z : Nat → S × S) : ((gbuf N z).2, (gbuf N z).1) = gbuf N fun a => gswap (z a) := rfl

/-- The product of complex numbers. -/
def gprod (x y : S × S) : S × S := (x.1 * y.1 - x.2 * y.2, x.2 * y.1 + x.1 * y.2)

/-- Division by an integer. -/
def gdiv (n : Nat) (x : S × S) : S × S := (x.1 / n, x.2 / n)

theorem gbuf_replicate (N : Nat) : ((List.replicate N 0, List.replicate N 0) : CBufOf S) = gbuf N fun _ => (0, 0) := by
  rw [tab_replicate]
  rfl

theorem wr_gbuf {N i : Nat} {z : Nat → S × S} (v : S × S) (hi : i < N) :
    (wr (gbuf N z).1 i v.1 = .ok (gbuf N fun a => if a = i then v else z a).1) ∧
    (wr (gbuf N z).2 i v.2 = .ok (gbuf N fun a => if a = i then v else z a).2) := by
  constructor
  · refine (wr_tab _ hi).trans ?_
    congr 1
    refine tab_congr fun a _ => ?_
    dsimp only
    split_ifs <;> rfl
  · refine (wr_tab _ hi).trans ?_
    congr 1
    refine tab_congr fun a _ => ?_
    dsimp only
    split_ifs <;> rfl

theorem rd_gbuf {N i : Nat} {z : Nat → S × S} (hi : i < N) : rd (gbuf N z).1 i = .ok (z i).1 ∧ rd (gbuf N z).2 i = .ok (z i).2 :=
  ⟨rd_tab hi, rd_tab hi⟩

theorem loop_gbuf {N n : Nat} {body : Nat → CBufOf S → C (CBufOf S)} {v z : Nat → S × S}
    (hbody : ∀ i o, i < n → o i = z i → body i (gbuf N o) = .ok (gbuf N fun a => if a = i then v i else o a)) :
    forRange 0 n body (gbuf N z) = .ok (gbuf N fun a => if a < n then v a else z a) := by
  have key := forRange_states (fun i => gbuf N fun a => if a < i then v a else z a) (Nat.zero_le n) (body := body) (by
    intro i _ hi
    rw [hbody i _ hi (if_neg (Nat.lt_irrefl i))]
    congr 1
    refine gbuf_congr fun a _ => ?_
    by_cases h : a = i
    · subst h; rw [if_pos rfl, if_pos (by omega)]
    · rw [if_neg h]; exact if_congr (by omega) rfl rfl)
  refine Eq.trans ?_ key
  congr 1

/-- The elements of the table of `Fft_transformBluestein`. -/
def cTable (n i : Nat) : S × S := (Trig.cos (Trig.pi * ((i * i % (n * 2) : ℕ) : S) / n), Trig.sin (Trig.pi * ((i * i % (n * 2) : ℕ) : S) / n))

theorem chirpTable_geq {n : Nat} (hn : n < 4294967296) :
    forRange 0 n (chirpTableBody (S := S) n) (List.replicate n 0, List.replicate n 0) = .ok (gbuf n (cTable n)) := by
  rw [gbuf_replicate]
  refine (loop_gbuf (v := cTable n) ?_).trans ?_
  · intro i o hi _
    have hii : i * i < 18446744073709551616 := by
      calc i * i ≤ 4294967295 * 4294967295 := Nat.mul_le_mul (by omega) (by omega)
        _ < _ := by norm_num
    rw [chirpTableBody, Nat.mod_eq_of_lt hii, Nat.mod_eq_of_lt (by omega : n * 2 < 18446744073709551616)]
    have e1 := (wr_gbuf (z := o) (cTable n i) hi).1
    have e2 := (wr_gbuf (z := o) (cTable n i) hi).2
    unfold cTable at e1 e2
    dsimp only at e1 e2 ⊢
    rw [e1, e2]
    rfl
  · congr 1
    exact gbuf_congr fun a h => by rw [if_pos h]

theorem chirpMultiply_geq {N n T X : Nat} {w x z : Nat → S × S} (hT : n ≤ T) (hX : n ≤ X) (hN : n ≤ N) :
    forRange 0 n (chirpMultiplyBody (gbuf T w) (gbuf X x)) (gbuf N z) =
      .ok (gbuf N fun a => if a < n then gmul (x a) (w a) else z a) := by
  refine loop_gbuf (v := fun i => gmul (x i) (w i)) ?_
  intro i o hi _
  rw [chirpMultiplyBody, (rd_gbuf (show i < X by omega)).1, (rd_gbuf (show i < X by omega)).2, (rd_gbuf (show i < T by omega)).1,
    (rd_gbuf (show i < T by omega)).2]
  simp only [ok_bind']
  have e1 := (wr_gbuf (z := o) (gmul (x i) (w i)) (show i < N by omega)).1
  have e2 := (wr_gbuf (z := o) (gmul (x i) (w i)) (show i < N by omega)).2
  unfold gmul at e1 e2
  dsimp only at e1 e2
  rw [e1, e2]
  rfl

theorem chirpFirst_geq {T N : Nat} {w z : Nat → S × S} (hT : 0 < T) (hN : 0 < N) :
    chirpFirst (gbuf T w) (gbuf N z) = .ok (gbuf N fun a => if a = 0 then w 0 else z a) := by
  rw [chirpFirst, (rd_gbuf hT).1, (rd_gbuf hT).2]
  simp only [ok_bind']
  rw [(wr_gbuf _ hN).1, (wr_gbuf _ hN).2]
  rfl

/-- The elements of the array b. -/
def gMirror (n m : Nat) (w : Nat → S × S) (a : Nat) : S × S := if a < n then w a else if m - n < a then w (m - a) else (0, 0)

theorem chirpMirror_geq {n m : Nat} {w : Nat → S × S} (hn : 0 < n) (hm : n < m / 2) :
    forRange 1 n (chirpMirrorBody (gbuf n w) m) (gbuf m fun a => if a = 0 then w 0 else (0, 0)) = .ok (gbuf m (gMirror n m w)) := by
  have key := forRange_states (fun i => gbuf m (gMirror i m w))
    (show 1 ≤ n by omega) (body := chirpMirrorBody (gbuf n w) m) (by
    intro i h1 hi
    rw [chirpMirrorBody, (rd_gbuf hi).1, (rd_gbuf hi).2]
    simp only [ok_bind']
    rw [(wr_gbuf _ (by omega)).1, (wr_gbuf _ (by omega)).2]
    simp only [ok_bind']
    rw [(wr_gbuf _ (by omega)).1, (wr_gbuf _ (by omega)).2]
    simp only [ok_bind', pure_eq_ok, Prod.mk.eta]
    congr 1
    refine gbuf_congr fun a ha => ?_
    unfold gMirror
    by_cases h : a = i
    · subst h; rw [if_pos rfl, if_pos (by omega)]
    · rw [if_neg h]
      by_cases h2 : a = m - i
      · subst h2
        rw [if_pos rfl, if_neg (by omega), if_pos (by omega)]
        congr 1
        omega
      · rw [if_neg h2]
        exact if_congr (by omega) rfl (if_congr (by omega) rfl rfl))
  refine Eq.trans ?_ key
  congr 1
  refine gbuf_congr fun a ha => ?_
  unfold gMirror
  by_cases h : a = 0
  · subst h; rw [if_pos rfl, if_pos (by omega)]
  · rw [if_neg h, if_neg (by omega), if_neg (by omega)]

theorem fftConvolve_geq {m : Nat} (hm : m < 2305843009213693952) {transform : Nat → CBufOf S → C (Bool × CBufOf S)} {a b o A B D : Nat → S × S}
    (hA : transform m (gbuf m a) = .ok (true, gbuf m A)) (hB : transform m (gbuf m b) = .ok (true, gbuf m B))
    (hD : transform m (gbuf m fun q => gswap (gprod (A q) (B q))) = .ok (true, gbuf m D)) :
    fftConvolve transform m (gbuf m a) (gbuf m b) (gbuf m o) = .ok (true, gbuf m fun k => gdiv m (gswap (D k))) := by
  rw [fftConvolve, if_neg (by omega), hA]
  simp only [ok_bind', Bool.not_true, Bool.false_eq_true, if_false]
  rw [hB]
  simp only [ok_bind', Bool.not_true, Bool.false_eq_true, if_false]
  rw [loop_gbuf (v := fun q => gprod (A q) (B q)) (by
    intro i z hi hz
    rw [fftMultiplyBody, (rd_gbuf hi).1, (rd_gbuf hi).2, (rd_gbuf hi).1, (rd_gbuf hi).2, hz]
    simp only [ok_bind']
    have e1 := (wr_gbuf (z := z) (gprod (A i) (B i)) hi).1
    have e2 := (wr_gbuf (z := z) (gprod (A i) (B i)) hi).2
    unfold gprod at e1 e2
    dsimp only at e1 e2
    rw [e1, e2]
    rfl)]
  simp only [ok_bind']
  rw [gbuf_swap]
  have hc : (gbuf m fun a => gswap (if a < m then gprod (A a) (B a) else A a)) = gbuf m fun q => gswap (gprod (A q) (B q)) :=
    gbuf_congr fun q hq => by rw [if_pos hq]
  rw [hc, hD]
  simp only [ok_bind', Bool.not_true, Bool.false_eq_true, if_false]
  rw [gbuf_swap]
  rw [loop_gbuf (v := fun k => gdiv m (gswap (D k))) (by
    intro i z hi _
    rw [fftScaleBody, (rd_gbuf hi).1, (rd_gbuf hi).2]
    simp only [ok_bind']
    have e1 := (wr_gbuf (z := z) (gdiv m (gswap (D i))) hi).1
    have e2 := (wr_gbuf (z := z) (gdiv m (gswap (D i))) hi).2
    unfold gdiv at e1 e2
    dsimp only at e1 e2
    rw [e1]
    simp only [ok_bind']
    rw [e2]
    rfl)]
  simp only [ok_bind', pure_eq_ok]
  congr 2
  exact gbuf_congr fun k hk => by rw [if_pos hk]

theorem fftBluestein_gbuf {n N m : Nat} (hn0 : 0 < n) (hn : n < 4294967296) (hN : n ≤ N) (hmn : n < m / 2) (hm : m < 2305843009213693952)
    (hlen : fftLength n 65 1 = .ok (some m)) {x A B D : Nat → S × S} {transform : Nat → CBufOf S → C (Bool × CBufOf S)}
    (hA : transform m (gbuf m fun a => if a < n then gmul (x a) (cTable n a) else (0, 0)) = .ok (true, gbuf m A))
    (hB : transform m (gbuf m (gMirror n m (cTable n))) = .ok (true, gbuf m B))
    (hD : transform m (gbuf m fun q => gswap (gprod (A q) (B q))) = .ok (true, gbuf m D)) :
    fftBluestein transform n (gbuf N x) =
      .ok (true, gbuf N fun k => if k < n then gmul (gdiv m (gswap (D k))) (cTable n k) else x k) := by
  rw [fftBluestein, hlen]
  simp only [ok_bind']
  rw [if_neg (by omega), chirpTable_geq hn]
  simp only [ok_bind']
  rw [gbuf_replicate, chirpMultiply_geq le_rfl hN (by omega)]
  simp only [ok_bind']
  rw [chirpFirst_geq hn0 (by omega)]
  simp only [ok_bind']
  rw [chirpMirror_geq hn0 hmn]
  simp only [ok_bind']
  rw [fftConvolve_geq hm hA hB hD]
  simp only [ok_bind', Bool.not_true, Bool.false_eq_true, if_false]
  rw [chirpMultiply_geq le_rfl (by omega) hN]
  rfl

end Sp
