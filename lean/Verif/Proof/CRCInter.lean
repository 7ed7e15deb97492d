import Verif.Model.CRCInter
import Verif.Spec.CRCInter
import Verif.Proof.CRC

/-! # The CRC of several frames at once computes the CRC of each of them -/

namespace Verif.CRC
open Exec Polynomial GF2

/-- One step of the division on a frame seen as a function. -/
def gstep (c : Crc) (t : Nat) (f : Nat → Int) : Nat → Int := fun k =>
  if t ≤ k ∧ k ≤ t + c.size then (if f t = 0 then f k else xor1 (f k) (c.poly.getD (k - t) 0)) else f k

def gen (c : Crc) : Nat → (Nat → Int) → Nat → Int
  | 0, f => f
  | t + 1, f => gstep c t (gen c t f)

theorem xor1_01 {x p : Int} (h : x = 0 ∨ x = 1) : xor1 x p = 0 ∨ xor1 x p = 1 := by
  unfold xor1
  rcases h with rfl | rfl <;> (split <;> simp)

theorem gen_01 {c : Crc} {f : Nat → Int} (h : ∀ k, f k = 0 ∨ f k = 1) : ∀ t k, gen c t f k = 0 ∨ gen c t f k = 1 := by
  intro t
  induction t with
  | zero => exact h
  | succ t ih =>
    intro k
    rw [gen, gstep]
    split
    · split
      · exact ih k
      · exact xor1_01 (ih k)
    · exact ih k

theorem xor1_flip {x p : Int} (h : x = 0 ∨ x = 1) (hp : p ≠ 0) : xor1 x p = if x = 0 then 1 else 0 := by
  unfold xor1
  rw [if_neg hp]
  rcases h with rfl | rfl <;> simp

/-- The frame at the start of the division. -/
def start (n off : Nat) (u : List Int) : Nat → Int := fun k => if k < n then u.getD (off + k) 0 else 0

theorem generate_gen {c : Crc} (h : c.WF) {buff u : List Int} {off n : Nat} (hu : off + n ≤ u.length)
    (hb : n + c.size ≤ buff.length) (h01 : ∀ k, k < n → u.getD (off + k) 0 = 0 ∨ u.getD (off + k) 0 = 1) :
    (c.generate buff u off n).Sat fun b => b.length = buff.length ∧
      ∀ k, k < n + c.size → b.getD k 0 = gen c n (start n off u) k := by
  unfold Crc.generate
  refine (copyTo_sat hu (by omega)).bind ?_
  rintro b1 ⟨hl1, hb1⟩
  refine (forN_fill (off := n) (n := c.size) (g := fun _ => (0 : Int)) (by omega)).bind ?_
  rintro b2 ⟨hl2, hb2⟩
  have hs01 : ∀ k, start n off u k = 0 ∨ start n off u k = 1 := by
    intro k
    unfold start
    split
    · exact h01 k ‹_›
    · exact Or.inl rfl
  refine (forN_inv (fun t (b : List Int) => b.length = buff.length ∧
      ∀ k, k < n + c.size → b.getD k 0 = gen c t (start n off u) k) ?_ ?_)
  · refine ⟨by omega, fun k hk => ?_⟩
    rw [List.getD_eq_getElem?_getD, hb2, gen, start]
    by_cases hkn : k < n
    · rw [if_neg (by omega), hb1, if_pos (by omega), if_pos hkn, List.getD_eq_getElem?_getD]; simp
    · rw [if_pos (by omega), if_neg hkn]; rfl
  · rintro t b ht ⟨hl, hg⟩
    have htb : t < b.length := by omega
    rw [rd_lt htb, bind_ok]
    have hgt : b[t] = gen c t (start n off u) t := by rw [← hg t (by omega), getD_lt 0 htb]
    by_cases hv : b[t] ≠ 0
    · rw [if_pos hv]
      refine (forN_inv (fun j (b' : List Int) => b'.length = buff.length ∧
          ∀ k, k < n + c.size → b'.getD k 0 = if t ≤ k ∧ k < t + j then xor1 (b.getD k 0) (c.poly.getD (k - t) 0) else b.getD k 0) ?_ ?_).mono ?_
      · exact ⟨hl, fun k hk => by rw [if_neg (by omega)]⟩
      · rintro j b' hj ⟨hl', hg'⟩
        have hjp : j < c.poly.length := by rw [poly_length h]; omega
        rw [rd_lt hjp, bind_ok]
        have hp : c.poly.getD j 0 = c.poly[j] := getD_lt 0 hjp
        by_cases hpz : c.poly[j] ≠ 0
        · have hij : t + j < b'.length := by omega
          rw [if_pos hpz, rd_lt hij, bind_ok, wr_lt hij, sat_ok]
          refine ⟨by simpa using hl', fun k hk => ?_⟩
          by_cases he : t + j = k
          · subst he
            rw [getD_set_eq hij, if_pos (show t ≤ t + j ∧ t + j < t + (j + 1) by omega), Nat.add_sub_cancel_left, hp,
              xor1_flip (by rw [hg _ hk]; exact gen_01 hs01 _ _) hpz]
            have := hg' (t + j) hk
            rw [if_neg (by omega), getD_lt 0 hij] at this
            rw [this]
          · rw [getD_set_ne he, hg' k hk]
            by_cases h1 : t ≤ k ∧ k < t + j
            · rw [if_pos h1, if_pos (by omega)]
            · rw [if_neg h1, if_neg (by omega)]
        · rw [if_neg hpz, sat_ok]
          refine ⟨hl', fun k hk => ?_⟩
          rw [hg' k hk]
          by_cases he : t + j = k
          · subst he
            rw [if_neg (by omega), if_pos (by omega), Nat.add_sub_cancel_left, hp, xor1, if_pos (by simpa using hpz)]
          · by_cases h1 : t ≤ k ∧ k < t + j
            · rw [if_pos h1, if_pos (by omega)]
            · rw [if_neg h1, if_neg (by omega)]
      · rintro b' ⟨hl', hg'⟩
        refine ⟨hl', fun k hk => ?_⟩
        rw [hg' k hk, gen, gstep, ← hgt, if_neg hv, ← hg k hk]
        by_cases h1 : t ≤ k ∧ k < t + (c.size + 1)
        · rw [if_pos h1, if_pos (by omega)]
        · rw [if_neg h1, if_neg (by omega)]
    · rw [if_neg hv, sat_ok]
      refine ⟨hl, fun k hk => ?_⟩
      rw [hg k hk, gen, gstep, ← hgt, if_pos (show b[t] = 0 by simpa using hv)]
      split <;> rfl

theorem idx_inj {n k l k' l' : Nat} (hl : l < n) (hl' : l' < n) (h : n * k + l = n * k' + l') : k = k' ∧ l = l' := by
  have hn : 0 < n := by omega
  have h1 : (n * k + l) / n = k := by rw [Nat.mul_add_div hn, Nat.div_eq_of_lt hl]; omega
  have h2 : (n * k' + l') / n = k' := by rw [Nat.mul_add_div hn, Nat.div_eq_of_lt hl']; omega
  have hk : k = k' := by rw [← h1, ← h2, h]
  subst hk
  exact ⟨rfl, by omega⟩

theorem idx_lt {n k l m : Nat} (hl : l < n) (hk : k < m) : n * k + l < m * n := by
  have := Nat.mul_le_mul_left n (show k + 1 ≤ m by omega)
  rw [Nat.mul_add, Nat.mul_one, Nat.mul_comm n m] at this
  omega

theorem idx_ge {n k l m : Nat} (hk : m ≤ k) : m * n ≤ n * k + l := by
  have := Nat.mul_le_mul_left n hk
  rw [Nat.mul_comm n m] at this
  omega

/-- The start of frame `l`. -/
def startI (K n l : Nat) (v : List Int) : Nat → Int := fun k => if k < K then v.getD (n * k + l) 0 else 0

theorem generateInter_gen {c : Crc} (h : c.WF) {n : Nat} (hn : 0 < n) {buff v : List Int} (hv : c.K * n ≤ v.length)
    (hb : buff.length = (c.K + c.size) * n) :
    (c.generateInter n buff v 0 (c.K * n)).Sat fun b => b.length = buff.length ∧
      ∀ l, l < n → ∀ k, k < c.K + c.size → b.getD (n * k + l) 0 = gen c c.K (startI c.K n l v) k := by
  unfold Crc.generateInter
  have hlen : (c.K + c.size) * n = c.K * n + n * c.size := by rw [Nat.add_mul, Nat.mul_comm c.size n]
  refine (copyTo_sat (by omega) (by omega)).bind ?_
  rintro b1 ⟨hl1, hb1⟩
  have hfill : forN (n * c.size) (fun i (b : List Int) => wr b (b.length - n * c.size + i) 0) b1 =
      forN (n * c.size) (fun i b => wr b (c.K * n + i) 0) b1 := by
    have key : ∀ m, m ≤ n * c.size → (forN m (fun i (b : List Int) => wr b (b.length - n * c.size + i) 0) b1 =
        forN m (fun i b => wr b (c.K * n + i) 0) b1) := by
      intro m
      induction m with
      | zero => intro _; rfl
      | succ m ih =>
        intro hm
        rw [forN_succ, forN_succ, ih (by omega)]
        obtain ⟨o, ho, hol, _⟩ := forN_fill (off := c.K * n) (n := m) (g := fun _ => (0 : Int)) (out := b1) (by omega)
        rw [ho, bind_ok, bind_ok, show o.length - n * c.size = c.K * n by omega]
    exact key _ (Nat.le_refl _)
  rw [hfill]
  refine (forN_fill (off := c.K * n) (n := n * c.size) (g := fun _ => (0 : Int)) (by omega)).bind ?_
  rintro b2 ⟨hl2, hb2⟩
  have hturns : (c.K * n + n - 1) / n = c.K := by
    rw [show c.K * n + n - 1 = n * c.K + (n - 1) by rw [Nat.mul_comm]; omega, Nat.mul_add_div hn, Nat.div_eq_of_lt (by omega)]
    rfl
  rw [hturns]
  refine (forN_inv (fun t (b : List Int) => b.length = buff.length ∧ ∀ l, l < n → ∀ k, k < c.K + c.size →
      b.getD (n * k + l) 0 = gen c t (startI c.K n l v) k) ?_ ?_)
  · refine ⟨by omega, fun l hl k hk => ?_⟩
    have hlt := idx_lt hl hk
    rw [List.getD_eq_getElem?_getD, hb2, gen, startI]
    by_cases hkK : k < c.K
    · have := idx_lt hl hkK
      rw [if_neg (by omega), hb1, if_pos (by omega), if_pos hkK, List.getD_eq_getElem?_getD]
      simp
    · have := idx_ge (n := n) (k := k) (l := l) (m := c.K) (by omega)
      rw [if_pos (by omega), if_neg hkK]; rfl
  · rintro t b ht ⟨hl, hg⟩
    let val : Nat → Nat → Int := fun l k =>
      if b.getD (n * t + l) 0 = 0 then b.getD (n * k + l) 0 else xor1 (b.getD (n * k + l) 0) (c.poly.getD (k - t) 0)
    refine (forN_inv (fun j (b' : List Int) => b'.length = buff.length ∧ ∀ l, l < n → ∀ k, k < c.K + c.size →
        b'.getD (n * k + l) 0 = if t ≤ k ∧ k < t + j then val l k else b.getD (n * k + l) 0) ?_ ?_).mono ?_
    · exact ⟨hl, fun l hl k hk => by rw [if_neg (by omega)]⟩
    · rintro j b' hj ⟨hl', hg'⟩
      have hjp : j < c.poly.length := by rw [poly_length h]; omega
      rw [rd_lt hjp, bind_ok]
      have hp : c.poly.getD j 0 = c.poly[j] := getD_lt 0 hjp
      refine (forN_inv (fun m (b'' : List Int) => b''.length = buff.length ∧ ∀ l, l < n → ∀ k, k < c.K + c.size →
          b''.getD (n * k + l) 0 = if t ≤ k ∧ (k < t + j ∨ (k = t + j ∧ l < m)) then val l k else b.getD (n * k + l) 0) ?_ ?_).mono ?_
      · refine ⟨hl', fun l hl k hk => ?_⟩
        rw [hg' l hl k hk]
        by_cases h1 : t ≤ k ∧ k < t + j
        · rw [if_pos h1, if_pos (by omega)]
        · rw [if_neg h1, if_neg (by omega)]
      · rintro m b'' hm ⟨hl'', hg''⟩
        have i1 : n * t + m < b.length := by have := idx_lt (m := c.K + c.size) hm (show t < c.K + c.size by omega); omega
        have i2 : n * t + n * j + m = n * (t + j) + m := by rw [Nat.mul_add]
        have i3 : n * (t + j) + m < b''.length := by have := idx_lt (m := c.K + c.size) hm (show t + j < c.K + c.size by omega); omega
        rw [rd_lt i1, bind_ok, i2, rd_lt i3, bind_ok, wr_lt i3, sat_ok]
        refine ⟨by simpa using hl'', fun l hl k hk => ?_⟩
        by_cases he : n * (t + j) + m = n * k + l
        · obtain ⟨rfl, rfl⟩ := idx_inj hm hl he
          rw [getD_set_eq i3, if_pos (show t ≤ t + j ∧ (t + j < t + j ∨ (t + j = t + j ∧ m < m + 1)) by omega)]
          have hx := hg'' m hl (t + j) hk
          rw [if_neg (by omega), getD_lt 0 i3] at hx
          simp only [val]
          rw [hx, getD_lt 0 i1, Nat.add_sub_cancel_left, hp]
        · rw [getD_set_ne he, hg'' l hl k hk]
          by_cases h1 : t ≤ k ∧ (k < t + j ∨ (k = t + j ∧ l < m))
          · rw [if_pos h1, if_pos (by omega)]
          · rw [if_neg h1, if_neg]
            rintro ⟨h2, h3 | ⟨h3, h4⟩⟩
            · omega
            · subst h3
              have : l = m := by omega
              subst this
              exact he rfl
      · rintro b'' ⟨hl'', hg''⟩
        refine ⟨hl'', fun l hl k hk => ?_⟩
        rw [hg'' l hl k hk]
        by_cases h1 : t ≤ k ∧ k < t + (j + 1)
        · rw [if_pos h1, if_pos (by omega)]
        · rw [if_neg h1, if_neg (by omega)]
    · rintro b' ⟨hl', hg'⟩
      refine ⟨hl', fun l hl k hk => ?_⟩
      rw [hg' l hl k hk, gen, gstep, ← hg l hl t (by omega), ← hg l hl k hk]
      by_cases h1 : t ≤ k ∧ k < t + (c.size + 1)
      · rw [if_pos h1, if_pos (by omega)]
      · rw [if_neg h1, if_neg (by omega)]

theorem equalLoop_eq {b v : List Int} {off : Nat} :
    ∀ (r i : Nat), off + i + r ≤ b.length → off + i + r ≤ v.length →
      ∃ res, equalLoop b v off i r = ok res ∧
        (res = true ↔ ∀ k, i ≤ k → k < i + r → b.getD (off + k) 0 = v.getD (off + k) 0) := by
  intro r
  induction r with
  | zero => intro i _ _; exact ⟨true, rfl, by simp; omega⟩
  | succ r ih =>
    intro i hb hv
    rw [equalLoop, rd_lt (show off + i < b.length by omega), bind_ok, rd_lt (show off + i < v.length by omega), bind_ok]
    have e1 := getD_lt 0 (show off + i < b.length by omega)
    have e2 := getD_lt 0 (show off + i < v.length by omega)
    by_cases hc : b[off + i] = v[off + i]
    · rw [if_pos hc]
      obtain ⟨res, h1, h2⟩ := ih (i + 1) (by omega) (by omega)
      refine ⟨res, h1, h2.trans ⟨?_, ?_⟩⟩
      · intro hh k hk1 hk2
        by_cases hki : k = i
        · subst hki; rw [e1, e2, hc]
        · exact hh k (by omega) (by omega)
      · intro hh k hk1 hk2
        exact hh k (by omega) (by omega)
    · rw [if_neg hc]
      refine ⟨false, rfl, ?_⟩
      simp only [Bool.false_eq_true, false_iff]
      intro hh
      exact hc (by rw [← e1, ← e2]; exact hh i (by omega) (by omega))

theorem lane_length (n len l : Nat) (v : List Int) : (lane n len l v).length = len := by simp [lane]

theorem lane_getD {n len l k : Nat} {v : List Int} (hk : k < len) : (lane n len l v).getD k 0 = v.getD (n * k + l) 0 := by
  rw [lane, List.getD_eq_getElem?_getD, getElem?_mapRange, if_pos hk]; rfl

theorem gen_congr {c : Crc} {f g : Nat → Int} {n : Nat} (h : ∀ k, f k = g k) : gen c n f = gen c n g := by
  have : f = g := funext h
  rw [this]

theorem getD_01 {v : List Int} (h : ∀ x ∈ v, x = 0 ∨ x = 1) (k : Nat) : v.getD k 0 = 0 ∨ v.getD k 0 = 1 := by
  rw [List.getD_eq_getElem?_getD]
  cases e : v[k]? with
  | none => exact Or.inl rfl
  | some x => exact h x (List.mem_of_getElem? e)

theorem bit_inj01 {a b : Int} (ha : a = 0 ∨ a = 1) (hb : b = 0 ∨ b = 1) : bit a = bit b ↔ a = b := by
  rw [bit_inj]
  rcases ha with rfl | rfl <;> rcases hb with rfl | rfl <;> simp

/-- The check of the interleaved frames accepts exactly when the check of each frame does. -/
theorem checkInter_iff {c : Crc} (h : c.WF) {n : Nat} (hn : 0 < n) {buff v : List Int} (hv : v.length = (c.K + c.size) * n)
    (hb : buff.length = (c.K + c.size) * n) (h01 : ∀ x ∈ v, x = 0 ∨ x = 1) :
    ∃ res, c.checkInter n buff v = ok res ∧
      (res = true ↔ ∀ l, l < n → ∀ buff', c.K + c.size ≤ buff'.length → c.check buff' (lane n (c.K + c.size) l v) = ok true) := by
  have hlen : (c.K + c.size) * n = c.K * n + n * c.size := by rw [Nat.add_mul, Nat.mul_comm c.size n]
  unfold Crc.checkInter
  obtain ⟨b, hgen, hl, hg⟩ := generateInter_gen h hn (buff := buff) (v := v) (by omega) hb
  rw [hgen, bind_ok]
  obtain ⟨res, h1, h2⟩ := equalLoop_eq (b := b) (v := v) (off := c.K * n) (n * c.size) 0 (by omega) (by omega)
  refine ⟨res, h1, h2.trans ?_⟩
  have hs01 : ∀ l k, startI c.K n l v k = 0 ∨ startI c.K n l v k = 1 := by
    intro l k
    unfold startI
    split
    · exact getD_01 h01 _
    · exact Or.inl rfl
  have hlane : ∀ l, l < n → ∀ buff' : List Int, c.K + c.size ≤ buff'.length → (c.check buff' (lane n (c.K + c.size) l v) = ok true ↔
      ∀ k, k < c.size → b.getD (n * (c.K + k) + l) 0 = v.getD (n * (c.K + k) + l) 0) := by
    intro l hl' buff' hb'
    unfold Crc.check
    have h01' : ∀ k, k < c.K → (lane n (c.K + c.size) l v).getD (0 + k) 0 = 0 ∨ (lane n (c.K + c.size) l v).getD (0 + k) 0 = 1 := by
      intro k hk
      rw [Nat.zero_add, lane_getD (by omega)]; exact getD_01 h01 _
    obtain ⟨b', hgen', hl'', hg'⟩ := generate_gen h (buff := buff') (u := lane n (c.K + c.size) l v) (off := 0) (n := c.K)
      (by rw [lane_length]; omega) hb' h01'
    rw [hgen', bind_ok]
    obtain ⟨res', h1', h2'⟩ := compareLoop_eq (b := b') (v := lane n (c.K + c.size) l v) (off := c.K) c.size 0 (by omega)
      (by rw [lane_length]; omega)
    have hstart : gen c c.K (start c.K 0 (lane n (c.K + c.size) l v)) = gen c c.K (startI c.K n l v) := by
      apply gen_congr
      intro k
      unfold start startI
      split
      · rw [Nat.zero_add, lane_getD (by omega)]
      · rfl
    rw [h1']
    have e : (ok res' = ok true) ↔ res' = true := ⟨fun h => Exec.ok.inj h, fun h => by rw [h]⟩
    rw [e, h2']
    constructor
    · intro hh k hk
      have := hh k (Nat.zero_le _) (by omega)
      rw [lane_getD (by omega), hg' _ (by omega), hstart, ← hg l hl' _ (by omega)] at this
      refine (bit_inj01 ?_ (getD_01 h01 _)).mp this
      rw [hg l hl' _ (by omega)]
      exact gen_01 (hs01 l) _ _
    · intro hh k _ hk
      rw [lane_getD (by omega), hg' _ (by omega), hstart, ← hg l hl' _ (by omega), hh k (by omega)]
  constructor
  · intro hh l hl' buff' hb'
    rw [hlane l hl' buff' hb']
    intro k hk
    have := hh (n * k + l) (Nat.zero_le _) (by have := idx_lt hl' hk; rw [Nat.mul_comm c.size n] at this; omega)
    have e : c.K * n + (n * k + l) = n * (c.K + k) + l := by rw [Nat.mul_add, Nat.mul_comm c.K n]; omega
    rwa [e] at this
  · intro hh q _ hq
    have hq' : q < n * c.size := by omega
    have hd := Nat.div_add_mod q n
    have hm := Nat.mod_lt q hn
    have hk : q / n < c.size := Nat.div_lt_of_lt_mul hq'
    have := (hlane (q % n) hm (List.replicate (c.K + c.size) 0) (by simp)).mp (hh _ hm _ (by simp)) (q / n) hk
    have e : c.K * n + q = n * (c.K + q / n) + q % n := by rw [Nat.mul_add, Nat.mul_comm c.K n]; omega
    rw [e]; exact this

theorem frame_length {len l n : Nat} {v : List Int} (hv : v.length = n * len) (hl : l < n) : (frame len l v).length = len := by
  have := Nat.mul_le_mul_right len (show l + 1 ≤ n by omega)
  rw [Nat.add_mul, Nat.one_mul] at this
  unfold frame
  rw [List.length_take, List.length_drop]
  omega

theorem frame_getElem? {len l : Nat} {v : List Int} (j : Nat) : (frame len l v)[j]? = if j < len then v[l * len + j]? else none := by
  unfold frame
  by_cases h : j < len
  · rw [if_pos h, List.getElem?_take_of_lt h, List.getElem?_drop]
  · rw [if_neg h, List.getElem?_eq_none]
    rw [List.length_take]; omega

theorem frame_le {f n len : Nat} (hf : f < n) : f * len + len ≤ n * len := by
  have := Nat.mul_le_mul_right len (show f + 1 ≤ n by omega)
  rwa [Nat.add_mul, Nat.one_mul] at this

/-- A division on frame `f` of a vector is the division on the frame. -/
theorem generate_frame {c : Crc} {n f : Nat} {buff u : List Int} (hu : u.length = n * c.K) (hf : f < n) :
    c.generate buff u (f * c.K) c.K = c.generate buff (frame c.K f u) 0 c.K := by
  have e : copyTo u (f * c.K) c.K buff 0 = copyTo (frame c.K f u) 0 c.K buff 0 := by
    unfold copyTo
    apply forN_congr
    intro i o hi
    have h1 := frame_le (len := c.K) hf
    have h2 := frame_length hu hf
    rw [rd_lt (show f * c.K + i < u.length by omega), rd_lt (show 0 + i < (frame c.K f u).length by omega)]
    have := frame_getElem? (len := c.K) (l := f) (v := u) i
    rw [if_pos hi, List.getElem?_eq_getElem (by omega), List.getElem?_eq_getElem (by omega)] at this
    simp only [Nat.zero_add, bind_ok]
    rw [Option.some.inj this]
  unfold Crc.generate
  rw [e]

theorem buildInter_sat {c : Crc} (h : c.WF) {n : Nat} {buff u out : List Int} (hu : u.length = n * c.K)
    (ho : out.length = n * (c.K + c.size)) (hb : c.K + c.size ≤ buff.length) :
    (c.buildInter n buff u out).Sat fun w => w.length = n * (c.K + c.size) ∧ ∀ f, f < n →
      ∃ r, frame (c.K + c.size) f w = frame c.K f u ++ r ∧ r.length = c.size ∧ (∀ x ∈ r, x = 0 ∨ x = 1) ∧
        genPoly c.packed c.size ∣ wordPoly (frame c.K f u) * X ^ c.size + wordPoly r := by
  unfold Crc.buildInter
  refine Sat.bind (P := fun s : List Int × List Int => s.2.length = n * (c.K + c.size) ∧ ∀ f, f < n →
      ∃ r, frame (c.K + c.size) f s.2 = frame c.K f u ++ r ∧ r.length = c.size ∧ (∀ x ∈ r, x = 0 ∨ x = 1) ∧
        genPoly c.packed c.size ∣ wordPoly (frame c.K f u) * X ^ c.size + wordPoly r) ?_ (fun s hs => hs.elim fun a b => ⟨s.2, rfl, a, b⟩)
  refine (forN_inv (fun m (s : List Int × List Int) => s.1.length = buff.length ∧ s.2.length = n * (c.K + c.size) ∧ ∀ f, f < m →
      ∃ r, frame (c.K + c.size) f s.2 = frame c.K f u ++ r ∧ r.length = c.size ∧ (∀ x ∈ r, x = 0 ∨ x = 1) ∧
        genPoly c.packed c.size ∣ wordPoly (frame c.K f u) * X ^ c.size + wordPoly r) ?_ ?_).mono (fun s hs => hs.2)
  · exact ⟨rfl, ho, fun f hf => absurd hf (Nat.not_lt_zero f)⟩
  · rintro m ⟨bu, o⟩ hm ⟨hl1, hl2, hr⟩
    dsimp only at hl1 hl2 hr ⊢
    have k1 := frame_le (len := c.K) hm
    have k2 := frame_le (len := c.K + c.size) hm
    obtain ⟨o1, ho1, hol1, hg1⟩ := copyTo_sat (src := u) (so := m * c.K) (n := c.K) (dst := o) (d := m * (c.K + c.size)) (by omega) (by omega)
    rw [ho1, bind_ok, generate_frame hu hm]
    have hfl := frame_length hu hm
    obtain ⟨b, hgen, hl, h01, hd⟩ := generate_rem (off := 0) (n := c.K) (u := frame c.K m u) (buff := bu) h (by omega) (by omega)
    rw [hgen, bind_ok]
    obtain ⟨o2, ho2, hol2, hg2⟩ := copyTo_sat (src := b) (so := c.K) (n := c.size) (dst := o1) (d := m * (c.K + c.size) + c.K)
      (by omega) (by omega)
    rw [ho2, bind_ok, sat_ok]
    refine ⟨by dsimp only; omega, by dsimp only; omega, fun f hf => ?_⟩
    dsimp only
    by_cases hfm : f = m
    · subst hfm
      have hlr : ((List.range c.size).map fun k => b.getD (c.K + k) 0).length = c.size := by simp
      refine ⟨(List.range c.size).map (fun k => b.getD (c.K + k) 0), ?_, hlr, ?_, ?_⟩
      · apply List.ext_getElem?
        intro j
        rw [frame_getElem?]
        by_cases h1 : j < c.K
        · rw [if_pos (by omega), hg2, if_neg (by omega), hg1, if_pos (by omega), List.getElem?_append_left (by omega), frame_getElem?,
            if_pos h1, Nat.add_sub_cancel_left]
        · by_cases h2 : j < c.K + c.size
          · rw [if_pos h2, hg2, if_pos (by omega), List.getElem?_append_right (by omega), getElem?_mapRange, if_pos (by omega), hfl,
              getD_lt 0 (by omega), List.getElem?_eq_getElem (by omega)]
            congr 2
            omega
          · rw [if_neg h2, List.getElem?_eq_none]
            rw [List.length_append, hlr]; omega
      · intro v hv
        obtain ⟨k, hk, rfl⟩ := List.mem_map.mp hv
        exact h01 k (List.mem_range.mp hk)
      · rw [wordPoly_eq, wordPoly_eq, hfl, hlr]
        have e : P c.size (fun k => bit (((List.range c.size).map fun k => b.getD (c.K + k) 0).getD k 0)) =
            P c.size (fun k => bit (b.getD (c.K + k) 0)) := by
          apply P_congr
          intro k hk
          rw [List.getD_eq_getElem?_getD, getElem?_mapRange, if_pos hk]; rfl
        rw [e]
        simpa using hd
    · obtain ⟨r, e1, e2⟩ := hr f (by omega)
      refine ⟨r, ?_, e2⟩
      rw [← e1]
      apply List.ext_getElem?
      intro j
      rw [frame_getElem?, frame_getElem?]
      have k3 := frame_le (len := c.K + c.size) (show f < m by omega)
      by_cases hj : j < c.K + c.size
      · rw [if_pos hj, if_pos hj, hg2, if_neg (by omega), hg1, if_neg (by omega)]
      · rw [if_neg hj, if_neg hj]

theorem extractInter_sat {c : Crc} {n : Nat} {w out : List Int} (hw : w.length = n * (c.K + c.size)) (ho : out.length = n * c.K) :
    (c.extractInter n w out).Sat fun o => o.length = n * c.K ∧ ∀ f, f < n → frame c.K f o = (frame (c.K + c.size) f w).take c.K := by
  unfold Crc.extractInter
  refine forN_inv (fun m (o : List Int) => o.length = n * c.K ∧ ∀ f, f < m → frame c.K f o = (frame (c.K + c.size) f w).take c.K) ?_ ?_
  · exact ⟨ho, fun f hf => absurd hf (Nat.not_lt_zero f)⟩
  · rintro m o hm ⟨hl, hr⟩
    have k1 := frame_le (len := c.K) hm
    have k2 := frame_le (len := c.K + c.size) hm
    refine (copyTo_sat (by omega) (by omega)).mono ?_
    rintro o1 ⟨hol1, hg1⟩
    refine ⟨by omega, fun f hf => ?_⟩
    by_cases hfm : f = m
    · subst hfm
      apply List.ext_getElem?
      intro j
      rw [frame_getElem?]
      by_cases hj : j < c.K
      · rw [if_pos hj, hg1, if_pos (by omega), List.getElem?_take_of_lt hj, frame_getElem?, if_pos (by omega), Nat.add_sub_cancel_left]
      · rw [if_neg hj, List.getElem?_eq_none]
        rw [List.length_take]; omega
    · rw [← hr f (by omega)]
      apply List.ext_getElem?
      intro j
      rw [frame_getElem?, frame_getElem?]
      have k3 := frame_le (len := c.K) (show f < m by omega)
      by_cases hj : j < c.K
      · rw [if_pos hj, if_pos hj, hg1, if_neg (by omega)]
      · rw [if_neg hj, if_neg hj]

end Verif.CRC
