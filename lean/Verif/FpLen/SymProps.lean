import Verif.FpLen.Props
/-
C122: symmetry, exact lengths, the range of the lengths.
-/
namespace Verif.FpLen
open Verif Verif.Fp Verif.Exact Verif.FpVec
open Verif.Mx (V2 V3 Vec)

attribute [local irreducible] Fp.one Fp.lit

variable (c : Lib)

/-! ### Signs do not matter -/

theorem sq_abs {x y : F64} (h : Fp.abs x = Fp.abs y) : x * x = y * y := by
  cases x with
  | nan =>
    cases y with
    | nan => rfl
    | num t b hb => cases h
  | num s a ha =>
    cases y with
    | nan => cases h
    | num t b hb =>
      have : a = b := by injection h
      subst this
      show Fp.mul _ _ = Fp.mul _ _
      cases s <;> cases t <;> rfl

theorem abs_ofUnits (s t : Bool) (n : Int) (d : Nat) : Fp.abs (ofUnits s n d) = Fp.abs (ofUnits t (-n) d) := by
  unfold ofUnits
  by_cases h : n = 0
  · subst h; rfl
  · rw [if_neg h, if_neg (by omega), Int.natAbs_neg]; rfl

/-- the difference of two doubles in the other order: the same but for the sign -/
theorem abs_sub (x y : F64) : Fp.abs (x - y) = Fp.abs (y - x) := by
  cases x with
  | nan => cases y <;> rfl
  | num s a ha =>
    cases y with
    | nan => rfl
    | num t b hb =>
      show Fp.abs (Fp.add (.num s a ha) (.num (!t) b hb)) = Fp.abs (Fp.add (.num t b hb) (.num (!s) a ha))
      simp only [Fp.add]
      by_cases h1 : a = infBits
      · by_cases h2 : b = infBits
        · simp only [h1, h2, if_true, true_and]
          cases s <;> cases t <;> rfl
        · simp only [h1, h2, if_true, if_false]
          rfl
      · by_cases h2 : b = infBits
        · simp only [h1, h2, if_true, if_false]
          rfl
        · simp only [h1, h2, if_false]
          have : sgn t (mag b) + sgn (!s) (mag a) = -(sgn s (mag a) + sgn (!t) (mag b)) := by
            cases s <;> cases t <;> simp [sgn] <;> omega
          rw [this]
          exact abs_ofUnits _ _ _ _

/-- The length does not depend on the signs of the components. -/
theorem abs3_signs (v w : V3 F64) (hx : Fp.abs v.x = Fp.abs w.x) (hy : Fp.abs v.y = Fp.abs w.y) (hz : Fp.abs v.z = Fp.abs w.z) :
    abs3 c v = abs3 c w := by
  rw [abs3_eq, abs3_eq, sq_abs hx, sq_abs hy, sq_abs hz]
theorem abs2_signs (v w : V2 F64) (hx : Fp.abs v.x = Fp.abs w.x) (hy : Fp.abs v.y = Fp.abs w.y) : abs2 c v = abs2 c w := by
  rw [abs2_eq, abs2_eq, sq_abs hx, sq_abs hy]

/-- The distance from `p` to `q` is the distance from `q` to `p`, to the last bit and for all doubles. -/
theorem dist_symm (p q : V3 F64) (p' q' : V2 F64) : dist3 c p q = dist3 c q p ∧ dist2 c p' q' = dist2 c q' p' :=
  ⟨by rw [dist3_eq, dist3_eq]; exact abs3_signs c _ _ (abs_sub _ _) (abs_sub _ _) (abs_sub _ _),
   by rw [dist2_eq, dist2_eq]; exact abs2_signs c _ _ (abs_sub _ _) (abs_sub _ _)⟩

/-! ### Not NaN -/

/-- not NaN and the sign is plus -/
def Pos (x : F64) : Prop := ∃ b h, x = .num false b h

theorem pos_mk (b : Nat) : Pos (mk false b) := ⟨_, _, rfl⟩
theorem pos_ofUnits (n : Nat) (d : Nat) : Pos (ofUnits false n d) := by
  unfold ofUnits
  split
  · exact pos_mk _
  · have : decide ((n : Int) < 0) = false := by simp
    rw [this]; exact pos_mk _
theorem pos_sq {x : F64} (h : x ≠ .nan) : Pos (x * x) := by
  cases x with
  | nan => exact absurd rfl h
  | num s a ha =>
    show Pos (Fp.mul _ _)
    simp only [Fp.mul]
    have hs : (s != s) = false := by cases s <;> rfl
    rw [hs]
    split
    · rename_i h1
      have h1 : a = infBits := by rcases h1 with h | h <;> exact h
      subst h1
      rw [if_neg (by decide)]; exact pos_mk _
    · exact pos_ofUnits _ _
theorem pos_add {x y : F64} (hx : Pos x) (hy : Pos y) : Pos (x + y) := by
  obtain ⟨a, ha, rfl⟩ := hx
  obtain ⟨b, hb, rfl⟩ := hy
  show Pos (Fp.add _ _)
  simp only [Fp.add]
  split
  · rw [if_neg (by simp)]; exact pos_mk _
  · split
    · exact pos_mk _
    · have : sgn false (mag a) + sgn false (mag b) = ((mag a + mag b : Nat) : Int) := by simp [sgn]
      rw [this]; exact pos_ofUnits _ _
theorem pos_sqrt {x : F64} (hx : Pos x) : Pos (Fp.sqrt x) := by
  obtain ⟨a, ha, rfl⟩ := hx
  simp only [Fp.sqrt]
  split
  · exact ⟨_, _, rfl⟩
  · simp only [Bool.false_eq_true, if_false]
    split
    · exact ⟨_, _, rfl⟩
    · exact pos_ofUnits _ _

/-- The length of a vector without NaN is a number that is not negative, whatever the components are. -/
theorem abs_valid (v : V3 F64) (hx : v.x ≠ .nan) (hy : v.y ≠ .nan) (hz : v.z ≠ .nan) : Pos (abs3 c v) := by
  rw [abs3_eq]; exact pos_sqrt (pos_add (pos_add (pos_sq hx) (pos_sq hy)) (pos_sq hz))
theorem abs2_valid (v : V2 F64) (hx : v.x ≠ .nan) (hy : v.y ≠ .nan) : Pos (abs2 c v) := by
  rw [abs2_eq]; exact pos_sqrt (pos_add (pos_sq hx) (pos_sq hy))

/-! ### Exact lengths -/

theorem root_gr {x : F64} {m l : Int} {k : Nat} (h : Gr (k + k) x m) (hm : m = l * l) (hl : 0 ≤ l) (hb : l * l ≤ 2 ^ 53) (hk : k ≤ 537) :
    Gr k (Fp.sqrt x) l := by
  have hln : l.natAbs ≤ 2 ^ 53 := by
    have : l ≤ l * l ∨ l = 0 := by
      rcases eq_or_lt_of_le hl with h | h
      · right; omega
      · left; nlinarith
    omega
  obtain ⟨y, -, fy, vy⟩ := (Rp.grid l k hln (by omega)).rounds
  have h2 : (0 : ℚ) < 2 ^ k := by positivity
  obtain ⟨f, e⟩ := sqrt_exact h.fin fy (by rw [vy]; exact div_nonneg (by exact_mod_cast hl) h2.le) (by
    rw [vy, h.eqv, hm, pow_add, div_mul_div_comm]; push_cast; rfl)
  exact ⟨f, by rw [e, vy]⟩

/-- Components that are integers (in units of 2^-k, k up to 537), with a length that is one too and whose square is at most
2^53: the computed length is exact. -/
theorem abs3_exact (v : V3 F64) (k : Nat) (hk : k ≤ 537) (a b d l : Int) (hx : Gr k v.x a) (hy : Gr k v.y b) (hz : Gr k v.z d)
    (hl : 0 ≤ l) (h : a * a + b * b + d * d = l * l) (hb : l * l ≤ 2 ^ 53) : Gr k (abs3 c v) l := by
  rw [abs3_eq]
  have p1 := mul_self_nonneg a
  have p2 := mul_self_nonneg b
  have p3 := mul_self_nonneg d
  have g1 := hx.mul hx (by omega) (by omega)
  have g2 := hy.mul hy (by omega) (by omega)
  have g3 := hz.mul hz (by omega) (by omega)
  have g4 := g1.add g2 (by omega) (by omega)
  have g5 := g4.add g3 (by omega) (by omega)
  exact root_gr g5 h hl hb hk
theorem abs2_exact (v : V2 F64) (k : Nat) (hk : k ≤ 537) (a b l : Int) (hx : Gr k v.x a) (hy : Gr k v.y b)
    (hl : 0 ≤ l) (h : a * a + b * b = l * l) (hb : l * l ≤ 2 ^ 53) : Gr k (abs2 c v) l := by
  rw [abs2_eq]
  have p1 := mul_self_nonneg a
  have p2 := mul_self_nonneg b
  have g1 := hx.mul hx (by omega) (by omega)
  have g2 := hy.mul hy (by omega) (by omega)
  exact root_gr (g1.add g2 (by omega) (by omega)) h hl hb hk

-- a vector of length 7, in units of 2^-3
example (v : V3 F64) (hx : Gr 3 v.x 2) (hy : Gr 3 v.y (-3)) (hz : Gr 3 v.z 6) : Gr 3 (abs3 c v) 7 :=
  abs3_exact c v 3 (by omega) 2 (-3) 6 7 hx hy hz (by omega) (by decide) (by decide)

/-- The distance of a point from itself is zero. -/
theorem dist_self (p : V3 F64) (hx : Finite p.x) (hy : Finite p.y) (hz : Finite p.z) : Finite (dist3 c p p) ∧ val (dist3 c p p) = 0 := by
  have key : ∀ x : F64, Finite x → Gr 0 (x - x) 0 := by
    intro x hx
    have h := sub_rounds hx hx
    rw [sub_self] at h
    obtain ⟨f, v⟩ := h.exact (by simpa using Rp.int 0 (by decide))
    exact ⟨f, by rw [v]; simp⟩
  rw [dist3_eq]
  have := abs3_exact c ⟨p.x - p.x, p.y - p.y, p.z - p.z⟩ 0 (by omega) 0 0 0 0 (key _ hx) (key _ hy) (key _ hz) (by omega) (by decide) (by decide)
  exact ⟨this.fin, by rw [this.eqv]; simp⟩

/-! ### Larger components, larger length -/

theorem sq_mono {x y : F64} (hx : Usual x) (hy : Usual y) (h : |val x| ≤ |val y|) : val (x * x) ≤ val (y * y) := by
  refine (mul_rounds hx.1 hx.1).mono (mul_rounds hy.1 hy.1) ?_
  have := mul_self_le_mul_self (abs_nonneg _) h
  rwa [abs_mul_abs_self, abs_mul_abs_self] at this

theorem rp_pow (n : Nat) (hn : n < 1020) : Rp (2 ^ n) := by
  have hp := Rp.zgrid (2 ^ 52) ((n : ℤ) - 52) (by decide) (by omega) (by omega)
  have e : (((2 ^ 52 : ℤ) : ℚ) * 2 ^ ((n : ℤ) - 52)) = 2 ^ n := by
    rw [Int.cast_pow, Int.cast_ofNat, ← zpow_natCast (2 : ℚ) 52, ← zpow_add₀ (by norm_num), ← zpow_natCast (2 : ℚ) n]
    congr 1; push_cast; omega
  rwa [e] at hp

theorem sq_fin {x : F64} (hx : Usual x) : Finite (x * x) ∧ 0 ≤ val (x * x) ∧ val (x * x) ≤ 2 ^ 1000 := by
  have h := hx.prod hx
  unfold big at h
  rw [abs_of_nonneg (mul_self_nonneg _)] at h
  have hp := rp_pow 1000 (by omega)
  have h0 := Rp.int 0 (by decide)
  rw [Int.cast_zero] at h0
  exact (mul_rounds hx.1 hx.1).between h0 hp (mul_self_nonneg _) h

theorem add_fin {x y : F64} {n : Nat} (hn : n < 1003) (hx : Finite x ∧ 0 ≤ val x ∧ val x ≤ 2 ^ n) (hy : Finite y ∧ 0 ≤ val y ∧ val y ≤ 2 ^ n) :
    Finite (x + y) ∧ 0 ≤ val (x + y) ∧ val (x + y) ≤ 2 ^ (n + 1) := by
  have hp := rp_pow (n + 1) (by omega)
  have h0 := Rp.int 0 (by decide)
  rw [Int.cast_zero] at h0
  refine (add_rounds hx.1 hy.1).between h0 hp (by linarith [hx.2.1, hy.2.1]) ?_
  rw [pow_succ]; linarith [hx.2.2, hy.2.2]

theorem add_mono {x y x' y' : F64} (hx : Finite x) (hy : Finite y) (hx' : Finite x') (hy' : Finite y') (h : val x ≤ val x') (h' : val y ≤ val y') :
    val (x + y) ≤ val (x' + y') :=
  (add_rounds hx hy).mono (add_rounds hx' hy') (by linarith)

/-- A vector with components that are not larger is not computed to be longer. -/
theorem abs3_mono (v w : V3 F64) (hv : Usual3 v) (hw : Usual3 w) (hx : |val v.x| ≤ |val w.x|) (hy : |val v.y| ≤ |val w.y|)
    (hz : |val v.z| ≤ |val w.z|) : val (abs3 c v) ≤ val (abs3 c w) := by
  obtain ⟨v1, v2, v3⟩ := hv
  obtain ⟨w1, w2, w3⟩ := hw
  have a1 := add_fin (by omega) (sq_fin v1) (sq_fin v2)
  have b1 := add_fin (by omega) (sq_fin w1) (sq_fin w2)
  have up : ∀ x : F64, Usual x → Finite (x * x) ∧ 0 ≤ val (x * x) ∧ val (x * x) ≤ 2 ^ 1001 := fun x hx => by
    obtain ⟨f, a, b⟩ := sq_fin hx
    exact ⟨f, a, b.trans (pow_le_pow_right₀ (by norm_num) (by omega))⟩
  have a2 := add_fin (by omega) a1 (up _ v3)
  have b2 := add_fin (by omega) b1 (up _ w3)
  rw [abs3_eq, abs3_eq]
  exact sqrt_mono a2.1 b2.1 a2.2.1 (add_mono a1.1 (sq_fin v3).1 b1.1 (sq_fin w3).1
    (add_mono (sq_fin v1).1 (sq_fin v2).1 (sq_fin w1).1 (sq_fin w2).1 (sq_mono v1 w1 hx) (sq_mono v2 w2 hy)) (sq_mono v3 w3 hz))

/-! ### Where lengths are lost -/

theorem sq_tiny {x : F64} (hf : Finite x) (h : |val x| ≤ 1 / 2 ^ 540) : Finite (x * x) ∧ val (x * x) = 0 := by
  have hs : val x * val x ≤ 1 / 2 ^ 1080 := by
    have := mul_le_mul h h (abs_nonneg _) (by positivity)
    rw [abs_mul_abs_self] at this
    refine this.trans (le_of_eq ?_)
    rw [div_mul_div_comm, ← pow_add]; norm_num
  have h0 := mul_self_nonneg (val x)
  have e1 : (2 : ℚ) ^ (-1074 : ℤ) = 1 / 2 ^ 1074 := by
    rw [show (-1074 : ℤ) = -((1074 : Nat) : ℤ) from rfl, zpow_neg, zpow_natCast, one_div]
  have e2 : (1 : ℚ) / 2 ^ 1080 = 1 / 64 * (1 / 2 ^ 1074) := by
    rw [show (1080 : Nat) = 1074 + 6 from rfl, pow_add (2 : ℚ) 1074]
    have : (0 : ℚ) < 2 ^ 1074 := by positivity
    generalize (2 : ℚ) ^ 1074 = w at this
    field_simp
    norm_num
  have hp : (0 : ℚ) < 1 / 2 ^ 1074 := by positivity
  obtain ⟨f, g⟩ := (mul_rounds hf hf).zerr (-1074) (by omega) (by omega) (by
    rw [abs_of_nonneg h0, e1]
    rw [e2] at hs
    generalize (1 : ℚ) / 2 ^ 1074 = w at *
    linarith)
  refine ⟨f, ?_⟩
  rw [e1] at g
  rw [e2] at hs
  have hv := val_units (x * x)
  rw [e1] at hv
  generalize (1 : ℚ) / 2 ^ 1074 = w at *
  rw [hv] at g ⊢
  have h3 := abs_le.1 g
  have h4 : ((units (x * x) : ℤ) : ℚ) * w < 1 * w := by linarith [h3.2]
  have h5 : (-1 : ℚ) * w < ((units (x * x) : ℤ) : ℚ) * w := by linarith [h3.1]
  have h6 := lt_of_mul_lt_mul_right h4 hp.le
  have h7 := lt_of_mul_lt_mul_right h5 hp.le
  have h8 : units (x * x) = 0 := by
    have a : units (x * x) < 1 := by exact_mod_cast h6
    have b : -1 < units (x * x) := by exact_mod_cast h7
    omega
  rw [h8]; simp

/-- Every vector with components up to 2^-540 (about 10^-163) has the length zero. -/
theorem abs3_tiny (v : V3 F64) (hx : Finite v.x ∧ |val v.x| ≤ 1 / 2 ^ 540) (hy : Finite v.y ∧ |val v.y| ≤ 1 / 2 ^ 540)
    (hz : Finite v.z ∧ |val v.z| ≤ 1 / 2 ^ 540) : Finite (abs3 c v) ∧ val (abs3 c v) = 0 := by
  have key : ∀ x : F64, Fp.Finite x → val x = 0 → Gr 0 x 0 := fun x f h => ⟨f, by rw [h]; simp⟩
  have g1 := key _ (sq_tiny hx.1 hx.2).1 (sq_tiny hx.1 hx.2).2
  have g2 := key _ (sq_tiny hy.1 hy.2).1 (sq_tiny hy.1 hy.2).2
  have g3 := key _ (sq_tiny hz.1 hz.2).1 (sq_tiny hz.1 hz.2).2
  have g := root_gr (k := 0) (l := 0) ((g1.add g2 (by omega) (by decide)).add g3 (by omega) (by decide)) (by decide) (by decide) (by decide) (by omega)
  rw [abs3_eq]
  exact ⟨g.fin, by rw [g.eqv]; simp⟩

/-- infinity -/
def inf : F64 := mk false infBits

theorem inf_add {y : F64} (hy : Pos y) : inf + y = inf ∧ y + inf = inf := by
  obtain ⟨b, hb, rfl⟩ := hy
  constructor
  · show Fp.add _ _ = _
    simp [inf, mk, Fp.add]
  · show Fp.add _ _ = _
    simp [inf, mk, Fp.add]

theorem overflow {r : F64} {e : ℚ} (h : Rounds r e) (he : 2 ^ 1024 ≤ e) (hp : Pos r) : r = inf := by
  have h0 : Rounds (ofUnits false infUnits 1) (2 ^ 1024) := by
    refine ⟨false, infUnits, 1, rfl, by omega, ?_⟩
    rw [inf_units, Nat.cast_one, one_mul, ← pow_add]; push_cast; rfl
  have hm := h0.mono h he
  rw [← units_le_val] at hm
  have hu : units (ofUnits false infUnits 1) = infUnits := by decide +kernel
  rw [hu] at hm
  obtain ⟨b, hb, rfl⟩ := hp
  have hn : ¬ Finite (.num false b hb) := fun hf => by
    have := (units_lt_inf hf).2
    omega
  have : b = infBits := by
    have h1 : ¬ b < infBits := hn
    omega
  subst this
  rfl

theorem sq_huge {x : F64} (hf : Finite x) (h : 2 ^ 512 ≤ |val x|) : x * x = inf := by
  refine overflow (mul_rounds hf hf) ?_ (pos_sq (by rintro rfl; exact hf))
  have := mul_le_mul h h (by positivity) (abs_nonneg _)
  rw [abs_mul_abs_self, ← pow_add] at this
  exact this

/-- Every vector with a component of 2^512 (about 10^154) or more has an infinite length, although the true length is far below
the largest double. -/
theorem abs3_huge (v : V3 F64) (hx : Finite v.x) (hy : Finite v.y) (hz : Finite v.z)
    (h : 2 ^ 512 ≤ |val v.x| ∨ 2 ^ 512 ≤ |val v.y| ∨ 2 ^ 512 ≤ |val v.z|) : abs3 c v = inf := by
  have ne : ∀ x : F64, Fp.Finite x → x ≠ .nan := by rintro x h rfl; exact h
  have px := pos_sq (ne _ hx)
  have py := pos_sq (ne _ hy)
  have pz := pos_sq (ne _ hz)
  have hs : v.x * v.x + v.y * v.y + v.z * v.z = inf := by
    rcases h with h | h | h
    · rw [sq_huge hx h, (inf_add py).1, (inf_add pz).1]
    · rw [sq_huge hy h, (inf_add px).2, (inf_add pz).1]
    · rw [sq_huge hz h, (inf_add (pos_add px py)).2]
  rw [abs3_eq, hs]
  decide +kernel

/-- two different points of distance zero; two points of infinite distance -/
theorem dist_lost : dist3 c ⟨zero, zero, zero⟩ ⟨lit 1 (10 ^ 170), zero, zero⟩ = zero ∧
    dist3 c ⟨zero, zero, zero⟩ ⟨lit (10 ^ 160) 1, zero, zero⟩ = inf := by
  rw [dist3_eq, abs3_eq, dist3_eq, abs3_eq]
  decide +kernel

/-- `acos` gives NaN for a number above one, as ISO C F.10.1.1 demands. -/
def Domain (c : Lib) : Prop := ∀ x : F64, Fp.lt (lit 1 1) x = true → c.acos x = .nan

/-- The angle between a vector and itself can be NaN: the quotient that should be one is larger. -/
theorem angle_nan (hc : Domain c) : angle3 c ⟨lit 1 1, lit 1 1, lit 1 1⟩ ⟨lit 1 1, lit 1 1, lit 1 1⟩ = .nan ∧
    angle2 c ⟨lit 1 1, lit 5 1⟩ ⟨lit 1 1, lit 5 1⟩ = .nan := by
  rw [angle3_eq, angle2_eq, abs3_eq, abs2_eq]
  constructor
  · exact hc _ (by decide +kernel)
  · rw [hc _ (by decide +kernel)]; rfl

end Verif.FpLen
