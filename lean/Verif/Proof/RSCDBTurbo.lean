import Verif.Proof.RSCDB
import Verif.Proof.InterleaverHistory

/-! # Lemmas on the double-binary turbo encoder -/

namespace Verif.RSCDB
open Exec Verif.RSC Verif.Interleaver

/-- An interleaver of `n` couples. -/
structure LutOk (c : Core) (n : Nat) : Prop where
  size : c.size = n
  lut : c.getLutInv = ok c.piInv
  rd : ∀ k, k < n → c.piInv[k]? = some (order c k)
  lt : ∀ k, k < n → order c k < n
  inj : ∀ j k, j < n → k < n → order c j = order c k → j = k

theorem lutOk {n : Nat} {uniform : Bool} {gen : GenLut} {ops : List Op} {c : Core} (hs : 0 < n) (hgen : ValidGen n gen) (hops : OpsValid n ops)
    (hc : history n uniform gen ops = ok c) : LutOk c n := by
  obtain ⟨c', hc', hsz, hn, hu, hini, T, hT⟩ := history_holds (uniform := uniform) hs hgen hops
  rw [hc] at hc'
  injection hc' with hc'
  subst hc'
  subst hsz
  have h1 : ∀ k, k < c.size → c.piInv[k]? = some (invOf (T 0) k) := by
    intro k hk
    have := (hT.bwd hn hk).1
    simpa using this
  have h2 : ∀ k, k < c.size → order c k = invOf (T 0) k := by
    intro k hk
    unfold order
    rw [List.getD_eq_getElem?_getD, h1 k hk]
    rfl
  refine ⟨rfl, by unfold Core.getLutInv; rw [hini]; rfl, fun k hk => by rw [h1 k hk, h2 k hk], fun k hk => ?_, fun j k hj hk e => ?_⟩
  · rw [h2 k hk]; exact (hT.bwd hn hk).2.1
  · rw [h2 j hj, h2 k hk] at e
    rw [← (hT.bwd hn hj).2.2, ← (hT.bwd hn hk).2.2, e]

/-- The exchange of the bits of the couples of even index. -/
def swp (i : Nat) : Nat := if i % 4 = 0 then i + 1 else if i % 4 = 1 then i - 1 else i

theorem swp_lt {K i : Nat} (hK : K % 2 = 0) (hi : i < K) : swp i < K := by
  unfold swp
  split
  · omega
  · split <;> omega

theorem swaps_sat {K off : Nat} (hK : K % 2 = 0) {v : List Int} (hv : off + K ≤ v.length) :
    (forN ((K + 3) / 4) (fun j v => swapAt v (off + 4 * j) (off + 4 * j + 1)) v).Sat fun v' =>
      v'.length = v.length ∧ ∀ j : Nat, v'[j]? = if off ≤ j ∧ j < off + K then v[off + swp (j - off)]? else v[j]? := by
  refine (forN_inv (fun m (v' : List Int) => v'.length = v.length ∧
    ∀ j : Nat, v'[j]? = if off ≤ j ∧ j < off + K ∧ j < off + 4 * m then v[off + swp (j - off)]? else v[j]?) ⟨rfl, fun j => by rw [if_neg (by omega)]⟩
    ?_).mono fun v' h => ⟨h.1, fun j => ?_⟩
  · rintro i w hi ⟨hl, h⟩
    have e0 : w[off + 4 * i]? = v[off + 4 * i]? := by rw [h, if_neg (by omega)]
    have e1 : w[off + 4 * i + 1]? = v[off + 4 * i + 1]? := by rw [h, if_neg (by omega)]
    unfold swapAt
    rw [rd_lt (by omega), bind_ok, rd_lt (by omega), bind_ok, wr_lt (by omega), bind_ok, wr_lt (by simp; omega), sat_ok]
    refine ⟨by simp [hl], fun j => ?_⟩
    rw [List.getElem?_set, List.getElem?_set, List.length_set]
    by_cases h1 : off + 4 * i + 1 = j
    · subst h1
      rw [if_pos rfl, if_pos (by omega), if_pos (by omega)]
      rw [show off + 4 * i + 1 - off = 4 * i + 1 by omega]
      unfold swp
      rw [if_neg (by omega), if_pos (by omega), show off + (4 * i + 1 - 1) = off + 4 * i by omega, ← e0, List.getElem?_eq_getElem (by omega)]
    · rw [if_neg h1]
      by_cases h2 : off + 4 * i = j
      · subst h2
        rw [if_pos rfl, if_pos (by omega), if_pos (by omega)]
        rw [show off + 4 * i - off = 4 * i by omega]
        unfold swp
        rw [if_pos (by omega), show off + (4 * i + 1) = off + 4 * i + 1 by omega, ← e1, List.getElem?_eq_getElem (by omega)]
      · rw [if_neg h2, h]
        by_cases h3 : off ≤ j ∧ j < off + K ∧ j < off + 4 * i
        · rw [if_pos h3, if_pos (by omega)]
        · rw [if_neg h3]
          by_cases h4 : off ≤ j ∧ j < off + K ∧ j < off + 4 * (i + 1)
          · rw [if_pos h4]
            unfold swp
            rw [if_neg (by omega), if_neg (by omega), show off + (j - off) = j by omega]
          · rw [if_neg h4]
  · rw [h.2 j]
    by_cases hj : off ≤ j ∧ j < off + K
    · rw [if_pos hj, if_pos (by omega)]
    · rw [if_neg hj, if_neg (by omega)]

theorem shuffle_sat {c : Core} {K off : Nat} (hK : K % 2 = 0) (hc : LutOk c (K / 2)) {v o : List Int} (hv : off + K ≤ v.length)
    (ho : off + K ≤ o.length) :
    (shuffle c K off v o).Sat fun s => s.1.length = v.length ∧ s.2.length = o.length ∧ ((∀ j, j < off ∨ off + K ≤ j → s.1[j]? = v[j]?)) ∧
      ∀ k, k < K / 2 → s.2[off + 2 * k]? = v[off + swp (2 * order c k)]? ∧ s.2[off + 2 * k + 1]? = v[off + swp (2 * order c k + 1)]? := by
  unfold shuffle
  refine (swaps_sat hK hv).bind fun v' hv' => ?_
  have hv2 : ∀ i, i < K → v'[off + i]? = v[off + swp i]? := by
    intro i hi
    rw [hv'.2, if_pos (by omega), show off + i - off = i by omega]
  refine Sat.bind (P := fun o' => o'.length = o.length ∧ ∀ k, k < K / 2 → o'[off + 2 * k]? = v[off + swp (2 * order c k)]? ∧
    o'[off + 2 * k + 1]? = v[off + swp (2 * order c k + 1)]?) ?_ fun o' h => sat_ok.2 ⟨hv'.1, h.1, fun j hj => ?_, h.2⟩
  · refine (forN_inv (fun m (o' : List Int) => o'.length = o.length ∧ ∀ k, k < m → o'[off + 2 * k]? = v[off + swp (2 * order c k)]? ∧
      o'[off + 2 * k + 1]? = v[off + swp (2 * order c k + 1)]?) ⟨rfl, fun k hk => absurd hk (by omega)⟩ ?_)
    rintro i w hi ⟨hl, h⟩
    have hlt := hc.lt i hi
    rw [hc.lut, bind_ok, rd_eq (hc.rd i hi), bind_ok, rd_lt (by omega), bind_ok, wr_lt (by omega), bind_ok, rd_lt (by omega), bind_ok,
      wr_lt (by simp; omega), sat_ok]
    have e0 := hv2 (order c i * 2) (by omega)
    have e1 := hv2 (order c i * 2 + 1) (by omega)
    rw [List.getElem?_eq_getElem (by omega)] at e0
    rw [List.getElem?_eq_getElem (by omega)] at e1
    refine ⟨by simp [hl], fun k hk => ?_⟩
    simp only [List.getElem?_set, List.length_set]
    by_cases e : k = i
    · subst e
      rw [if_neg (by omega), if_pos rfl, if_pos (by omega), if_pos rfl, if_pos (by omega), Nat.mul_comm 2 (order c k), ← e0, ← e1]
      exact ⟨rfl, rfl⟩
    · rw [if_neg (by omega), if_neg (by omega), if_neg (by omega), if_neg (by omega)]
      exact h k (by omega)
  · rw [hv'.2, if_neg (by omega)]

theorem swp_couple {v : List Int} (ρ : Nat → Nat) (k : Nat) :
    v[swp (2 * ρ k)]? = shuffledA ρ v k ∧ v[swp (2 * ρ k + 1)]? = shuffledB ρ v k := by
  unfold swp shuffledA shuffledB
  by_cases h : ρ k % 2 = 0
  · have h0 : 2 * ρ k % 4 = 0 := by omega
    have h1 : (2 * ρ k + 1) % 4 = 1 := by omega
    simp [h, h0, h1]
  · have h0 : 2 * ρ k % 4 = 2 := by omega
    have h1 : (2 * ρ k + 1) % 4 = 3 := by omega
    simp [h, h0, h1]

/-- Invariant of the turbo encoder. -/
structure TInv (e : TEnc) (Sn Si : Standard) (K nf : Nat) (core : Core) : Prop where
  hK : e.K = K
  hN : e.N = 3 * K
  n : EncOk e.n Sn true K
  i : EncOk e.i Si true K
  hcore : e.core = core
  hnf : e.nf = nf
  uCpy : e.uCpy.length = K * nf
  uI : e.uI.length = K * nf
  xTmp : e.xTmp.length = 3 * K * nf
  parN : e.parN.length = K
  parI : e.parI.length = K

theorem tmk_inv {K : Nat} {N : Int} {en ei : Enc} {Sn Si : Standard} {core : Core} {nf : Nat} {e : TEnc} (hn : EncOk en Sn true K)
    (hi : EncOk ei Si true K) (h : TEnc.mk? K N en ei core nf = ok e) : TInv e Sn Si K nf core ∧ N = 3 * K ∧ core.size * 2 = K := by
  unfold TEnc.mk? at h
  split at h
  · cases h
  split at h
  · cases h
  split at h
  · cases h
  split at h
  · cases h
  split at h
  · cases h
  next hN =>
  split at h
  · cases h
  split at h
  · cases h
  cases h
  obtain rfl : N = 3 * K := by omega
  refine ⟨⟨rfl, by dsimp only; omega, hn, hi, rfl, rfl, by simp, by simp, ?_, by simp, by simp⟩, rfl, by omega⟩
  rw [List.length_replicate, show (3 * (K : Int)).toNat = 3 * K by omega]

theorem tmk_inv' {K : Nat} {N : Int} {en ei : Enc} {Sn Si : Standard} {bn bi : Bool} {core : Core} {nf : Nat} {e : TEnc} (hn : EncOk en Sn bn K)
    (hi : EncOk ei Si bi K) (h : TEnc.mk? K N en ei core nf = ok e) : TInv e Sn Si K nf core ∧ N = 3 * K ∧ core.size * 2 = K := by
  have hb : bn = true ∧ bi = true := by
    unfold TEnc.mk? at h
    rw [hn.hbf, hi.hbf] at h
    split at h
    · cases h
    split at h
    · cases h
    split at h
    · cases h
    split at h
    · cases h
    split at h
    · cases h
    split at h
    · cases h
    split at h
    · cases h
    next hb => cases bn <;> cases bi <;> simp at hb ⊢
  obtain ⟨rfl, rfl⟩ := hb
  exact tmk_inv hn hi h

theorem emitPar_sat {K : Nat} (hK : K % 2 = 0) {pn pi x : List Int} (hn : pn.length = K) (hi : pi.length = K) (hx : x.length = 3 * K) :
    (emitPar K pn pi x).Sat fun y => y.length = 3 * K ∧ (∀ k, k < K → y[k]? = x[k]?) ∧ ∀ k, k < K / 2 →
      y[K + 2 * k]? = pn[2 * k]? ∧ y[K + 2 * k + 1]? = pi[2 * k]? ∧ y[2 * K + 2 * k]? = pn[2 * k + 1]? ∧ y[2 * K + 2 * k + 1]? = pi[2 * k + 1]? := by
  unfold emitPar
  refine (forN_inv (fun m (s : Nat × List Int) => s.1 = K + 2 * m ∧ s.2.length = 3 * K ∧ (∀ k, k < K → s.2[k]? = x[k]?) ∧ ∀ k, k < m →
    s.2[K + 2 * k]? = pn[2 * k]? ∧ s.2[K + 2 * k + 1]? = pi[2 * k]?) ⟨rfl, hx, fun _ _ => rfl, fun k hk => absurd hk (by omega)⟩ ?_).bind fun s hs => ?_
  · rintro j ⟨p, y⟩ hj ⟨hp, hl, h0, h⟩
    dsimp only at hp hl h0 h ⊢
    subst hp
    rw [rd_lt (by omega), bind_ok, wr_lt (by omega), bind_ok, rd_lt (by omega), bind_ok, wr_lt (by simp; omega), bind_ok, sat_ok]
    refine ⟨by dsimp only; omega, by simp [hl], fun k hk => ?_, fun k hk => ?_⟩
    · simp only [List.getElem?_set]
      rw [if_neg (by omega), if_neg (by omega)]
      exact h0 k hk
    · simp only [List.getElem?_set, List.length_set]
      by_cases e : k = j
      · subst e
        rw [if_neg (by omega), if_pos rfl, if_pos (by omega), if_pos rfl, if_pos (by omega), List.getElem?_eq_getElem (by omega),
          List.getElem?_eq_getElem (by omega)]
        exact ⟨rfl, rfl⟩
      · rw [if_neg (by omega), if_neg (by omega), if_neg (by omega), if_neg (by omega)]
        exact h k (by omega)
  · refine Sat.bind (P := fun (s : Nat × List Int) => s.2.length = 3 * K ∧ (∀ k, k < K → s.2[k]? = x[k]?) ∧ ∀ k, k < K / 2 →
      s.2[K + 2 * k]? = pn[2 * k]? ∧ s.2[K + 2 * k + 1]? = pi[2 * k]? ∧ s.2[2 * K + 2 * k]? = pn[2 * k + 1]? ∧
      s.2[2 * K + 2 * k + 1]? = pi[2 * k + 1]?) ?_ fun s h => sat_ok.2 h
    refine (forN_inv (fun m (s : Nat × List Int) => s.1 = 2 * K + 2 * m ∧ s.2.length = 3 * K ∧ (∀ k, k < K → s.2[k]? = x[k]?) ∧ (∀ k, k < K / 2 →
      s.2[K + 2 * k]? = pn[2 * k]? ∧ s.2[K + 2 * k + 1]? = pi[2 * k]?) ∧ ∀ k, k < m → s.2[2 * K + 2 * k]? = pn[2 * k + 1]? ∧
      s.2[2 * K + 2 * k + 1]? = pi[2 * k + 1]?) ⟨by rw [hs.1]; omega, hs.2.1, hs.2.2.1, hs.2.2.2, fun k hk => absurd hk (by omega)⟩ ?_).mono
      fun s h => ⟨h.2.1, h.2.2.1, fun k hk => ⟨(h.2.2.2.1 k hk).1, (h.2.2.2.1 k hk).2, (h.2.2.2.2 k hk).1, (h.2.2.2.2 k hk).2⟩⟩
    rintro j ⟨p, y⟩ hj ⟨hp, hl, h0, h1, h⟩
    dsimp only at hp hl h0 h1 h ⊢
    subst hp
    rw [rd_lt (by omega), bind_ok, wr_lt (by omega), bind_ok, rd_lt (by omega), bind_ok, wr_lt (by simp; omega), bind_ok, sat_ok]
    refine ⟨by dsimp only; omega, by simp [hl], fun k hk => ?_, fun k hk => ?_, fun k hk => ?_⟩
    · simp only [List.getElem?_set]
      rw [if_neg (by omega), if_neg (by omega)]
      exact h0 k hk
    · simp only [List.getElem?_set]
      rw [if_neg (by omega), if_neg (by omega), if_neg (by omega), if_neg (by omega)]
      exact h1 k hk
    · simp only [List.getElem?_set, List.length_set]
      by_cases e : k = j
      · subst e
        rw [if_neg (by omega), if_pos rfl, if_pos (by omega), if_pos rfl, if_pos (by omega), List.getElem?_eq_getElem (by omega),
          List.getElem?_eq_getElem (by omega)]
        exact ⟨rfl, rfl⟩
      · rw [if_neg (by omega), if_neg (by omega), if_neg (by omega), if_neg (by omega)]
        exact h k (by omega)

theorem slice_get {α : Type _} {l : List α} {o n i : Nat} (hi : i < n) : ((l.drop o).take n)[i]? = l[o + i]? := by
  rw [List.getElem?_take_of_lt hi, List.getElem?_drop]

theorem slice_len {α : Type _} {l : List α} {o n : Nat} (h : o + n ≤ l.length) : ((l.drop o).take n).length = n := by
  rw [List.length_take, List.length_drop]
  omega

theorem tencode_sat {e : TEnc} {Sn Si : Standard} {K nf : Nat} {core : Core} (he : TInv e Sn Si K nf core) (hc : LutOk core (K / 2))
    (hn : Circular Sn K) (hi : Circular Si K) {f : Nat} (hf : f < nf) {u x : List Int} (hu : u.length = K) (hb : IsBits u) (hx : x.length = 3 * K) :
    (e.encode f u x).Sat fun r => TInv r.1 Sn Si K nf core ∧ IsTurbo Sn Si K (order core) r.2 ∧ ∀ k, k < K → r.2[k]? = u[k]? := by
  have hev := he.n.even
  have hle : f * K + K ≤ K * nf := by
    have := Nat.mul_le_mul_left K hf
    rw [Nat.mul_succ, Nat.mul_comm] at this
    exact this
  have h3 : 3 * K * nf = 3 * (K * nf) := Nat.mul_assoc _ _ _
  have h2 : f * (2 * K) = 2 * (f * K) := Nat.mul_left_comm _ _ _
  have l1 := he.uCpy
  have l2 := he.uI
  have l3 := he.xTmp
  have l4 := he.parN
  have l5 := he.parI
  unfold TEnc.encode
  rw [he.hK, he.n.hK, he.n.hN, he.i.hK, he.i.hN, he.hcore, h2]
  refine (copyTo_sat (by omega) (by omega)).bind fun v hv => ?_
  refine (shuffle_sat hev hc (by omega) (by omega)).bind fun s hs => ?_
  rw [if_pos (by omega)]
  have hub : ∀ i, i < K → u[i]? = some 0 ∨ u[i]? = some 1 := fun i hi => bits_at hb (by omega)
  obtain ⟨a, b, hab⟩ := couples (u := u) (p := fun k => 2 * k) (q := fun k => 2 * k + 1) (n := K / 2)
    fun k hk => ⟨hub _ (by omega), hub _ (by omega)⟩
  refine (encode_sat he.n hn (u := u.take K) (by rw [List.length_take]; omega) (a := a) (b := b) (fun k hk => ?_)
    (slice_len (by omega))).bind fun w hw => ?_
  · rw [List.getElem?_take_of_lt (by omega), List.getElem?_take_of_lt (by omega)]; exact hab k hk
  have hwl := hw.1.1
  refine (copyTo_sat (by omega) (by omega)).bind fun tmp ht => ?_
  refine (copyTo_sat (by omega) (by omega)).bind fun pn hpn => ?_
  unfold encAt
  rw [he.i.hK, he.i.hN, h2, if_pos (by omega)]
  have hs2 : ∀ k, k < K / 2 → s.2[f * K + 2 * k]? = shuffledA (order core) u k ∧ s.2[f * K + 2 * k + 1]? = shuffledB (order core) u k := by
    intro k hk
    have hlt := hc.lt k hk
    have ea : ∀ i, i < K → v[f * K + i]? = u[i]? := by
      intro i hi
      rw [hv.2, if_pos (by omega)]
      congr 1
      omega
    rw [(hs.2.2.2 k hk).1, (hs.2.2.2 k hk).2, ea _ (swp_lt hev (by omega)), ea _ (swp_lt hev (by omega))]
    exact swp_couple _ k
  have hsb : ∀ k, k < K / 2 → (shuffledA (order core) u k = some 0 ∨ shuffledA (order core) u k = some 1) ∧
      (shuffledB (order core) u k = some 0 ∨ shuffledB (order core) u k = some 1) := by
    intro k hk
    have hlt := hc.lt k hk
    unfold shuffledA shuffledB
    split
    · exact ⟨hub _ (by omega), hub _ (by omega)⟩
    · exact ⟨hub _ (by omega), hub _ (by omega)⟩
  have hsl : ∀ i, i < K → ((s.2.drop (f * K)).take K)[i]? = s.2[f * K + i]? := fun i hi => slice_get hi
  have hs3 : ∀ k, k < K / 2 → ((s.2.drop (f * K)).take K)[2 * k]? = shuffledA (order core) u k ∧
      ((s.2.drop (f * K)).take K)[2 * k + 1]? = shuffledB (order core) u k := by
    intro k hk
    rw [hsl _ (by omega), hsl _ (by omega)]
    exact hs2 k hk
  obtain ⟨a', b', hab'⟩ := couples (u := (s.2.drop (f * K)).take K) (p := fun k => 2 * k) (q := fun k => 2 * k + 1) (n := K / 2)
    fun k hk => by rw [(hs3 k hk).1, (hs3 k hk).2]; exact hsb k hk
  rw [Exec.bind_assoc']
  refine (encode_sat he.i hi (u := (s.2.drop (f * K)).take K) (slice_len (by omega)) hab' (slice_len (by omega))).bind fun w' hw' => ?_
  have hwl' := hw'.1.1
  refine (copyTo_sat (by omega) (by omega)).bind fun tmp' ht' => ?_
  refine (copyTo_sat (by omega) (by omega)).bind fun pi hpi => ?_
  refine (copyTo_sat (by omega) (by omega)).bind fun x0 hx0 => ?_
  refine (emitPar_sat hev (by omega) (by omega) (by omega)).bind fun y hy => ?_
  rw [sat_ok]
  have hpn' : ∀ k, k < K → pn[k]? = w[K + k]? := by
    intro k hk
    rw [hpn.2, if_pos (by omega), ht.2, if_pos (by omega)]
    congr 1
    omega
  have hpi' : ∀ k, k < K → pi[k]? = w'[K + k]? := by
    intro k hk
    rw [hpi.2, if_pos (by omega), ht'.2, if_pos (by omega)]
    congr 1
    omega
  have hy0 : ∀ k, k < K → y[k]? = u[k]? := by
    intro k hk
    rw [hy.2.1 k hk, hx0.2, if_pos (by omega)]
    congr 1
    omega
  have hw0 : ∀ k, k < K → w[k]? = u[k]? := by
    intro k hk
    have h1 := hw.2 (k / 2) (by omega)
    have h2 := hab (k / 2) (by omega)
    simp only [posA, posB, if_true] at h1
    rcases Nat.mod_two_eq_zero_or_one k with e | e
    · rw [show k = 2 * (k / 2) by omega, h1.1]; exact h2.1.symm
    · rw [show k = 2 * (k / 2) + 1 by omega, h1.2]; exact h2.2.symm
  refine ⟨⟨rfl, he.hN, he.n, he.i, rfl, he.hnf, ?_, ?_, ?_, ?_, ?_⟩, ⟨hy.1, w, w', hw.1, hw'.1, fun k hk => ?_, fun k hk => ?_, fun k hk => ?_⟩, hy0⟩
  · dsimp only; rw [hs.1, hv.1, he.uCpy]
  · dsimp only; rw [hs.2.1, he.uI]
  · dsimp only; rw [ht'.1, ht.1, he.xTmp]
  · dsimp only; rw [hpn.1, he.parN]
  · dsimp only; rw [hpi.1, he.parI]
  · have hlt := hc.lt k hk
    rw [(hw'.2 k hk).1, (hw'.2 k hk).2]
    have := hab' k hk
    rw [← this.1, ← this.2, (hs3 k hk).1, (hs3 k hk).2]
    unfold shuffledA shuffledB
    split
    · exact ⟨(hw0 _ (by omega)).symm, (hw0 _ (by omega)).symm⟩
    · exact ⟨(hw0 _ (by omega)).symm, (hw0 _ (by omega)).symm⟩
  · rw [hy0 k hk, hw0 k hk]
  · simp only [posY, posW, if_true]
    obtain ⟨g1, g2, g3, g4⟩ := hy.2.2 k hk
    rw [g1, g2, g3, g4, hpn' _ (by omega), hpn' _ (by omega), hpi' _ (by omega), hpi' _ (by omega)]
    exact ⟨rfl, rfl, rfl, rfl⟩

theorem gather_sat {K d : Nat} (hK : K % 2 = 0) (hd : d < 2) {x tmp : List Int} (hx : x.length = 3 * K) (ht : 2 * K ≤ tmp.length) :
    (gather K d x tmp).Sat fun t => t.length = tmp.length ∧ (∀ k, k < K → t[k]? = tmp[k]?) ∧ ∀ k, k < K / 2 →
      t[K + 2 * k]? = x[K + 2 * k + d]? ∧ t[K + 2 * k + 1]? = x[2 * K + 2 * k + d]? := by
  unfold gather
  refine (forN_inv (fun m (t : List Int) => t.length = tmp.length ∧ (∀ k, k < K → t[k]? = tmp[k]?) ∧ ∀ k, k < m →
      t[K + 2 * k]? = x[K + 2 * k + d]? ∧ t[K + 2 * k + 1]? = x[2 * K + 2 * k + d]?) ⟨rfl, fun _ _ => rfl, fun k hk => absurd hk (by omega)⟩ ?_)
  rintro j t hj ⟨hl, h0, h⟩
  rw [Nat.one_mul, rd_lt (by omega), bind_ok, wr_lt (by omega), bind_ok, rd_lt (by omega), bind_ok, wr_lt (by simp; omega), sat_ok]
  refine ⟨by simp [hl], fun k hk => ?_, fun k hk => ?_⟩
  · simp only [List.getElem?_set]
    rw [if_neg (by omega), if_neg (by omega)]
    exact h0 k hk
  · simp only [List.getElem?_set, List.length_set]
    by_cases e : k = j
    · subst e
      rw [if_neg (by omega), if_pos rfl, if_pos (by omega), if_pos rfl, if_pos (by omega), List.getElem?_eq_getElem (by omega),
        List.getElem?_eq_getElem (by omega)]
      exact ⟨rfl, rfl⟩
    · rw [if_neg (by omega), if_neg (by omega), if_neg (by omega), if_neg (by omega)]
      exact h k (by omega)

theorem word_ext {K : Nat} (hK : K % 2 = 0) {v w : List Int} (hv : v.length = 2 * K) (hw : w.length = 2 * K) (h0 : ∀ k, k < K → v[k]? = w[k]?)
    (h1 : ∀ k, k < K / 2 → v[K + 2 * k]? = w[K + 2 * k]? ∧ v[K + 2 * k + 1]? = w[K + 2 * k + 1]?) : v = w := by
  apply List.ext_getElem?
  intro j
  by_cases hj : j < K
  · exact h0 j hj
  · by_cases hj2 : j < 2 * K
    · have := h1 ((j - K) / 2) (by omega)
      rcases Nat.mod_two_eq_zero_or_one (j - K) with e | e
      · rw [show j = K + 2 * ((j - K) / 2) by omega]; exact this.1
      · rw [show j = K + 2 * ((j - K) / 2) + 1 by omega]; exact this.2
    · rw [List.getElem?_eq_none (by omega), List.getElem?_eq_none (by omega)]

theorem tisc_sat {e : TEnc} {Sn Si : Standard} {K nf : Nat} {core : Core} (he : TInv e Sn Si K nf core) (hc : LutOk core (K / 2))
    (hn : Circular Sn K) (hi : Circular Si K) (hnf : 0 < nf) {x : List Int} (hx : x.length = 3 * K)
    (hb : ∀ k, k < K → x[k]? = some 0 ∨ x[k]? = some 1) :
    (e.isCodeword x).Sat fun r => TInv r.1 Sn Si K nf core ∧ (r.2 = true ↔ IsTurbo Sn Si K (order core) x) := by
  have hev := he.n.even
  have hle : K ≤ K * nf := Nat.le_mul_of_pos_right K hnf
  have h3 : 3 * K * nf = 3 * (K * nf) := Nat.mul_assoc _ _ _
  have l2 := he.uI
  have l3 := he.xTmp
  unfold TEnc.isCodeword
  rw [he.hK]
  refine (copyTo_sat (by omega) (by omega)).bind fun t0 ht0 => ?_
  refine (gather_sat hev (by omega) hx (by omega)).bind fun t1 ht1 => ?_
  have ht10 : ∀ k, k < K → t1[k]? = x[k]? := by
    intro k hk
    rw [ht1.2.1 k hk, ht0.2, if_pos (by omega)]
    congr 1
    omega
  have hxn : ∀ k, k < 2 * K → (t1.take (2 * K))[k]? = t1[k]? := fun k hk => List.getElem?_take_of_lt hk
  have hxnl : (t1.take (2 * K)).length = 2 * K := by rw [List.length_take]; omega
  obtain ⟨a, b, hab⟩ := couples (u := t1.take (2 * K)) (p := posA true) (q := posB true) (n := K / 2) fun k hk => by
    simp only [posA, posB, if_true]
    rw [hxn _ (by omega), hxn _ (by omega), ht10 _ (by omega), ht10 _ (by omega)]
    exact ⟨hb _ (by omega), hb _ (by omega)⟩
  rw [he.n.hN]
  -- the two words that a turbo codeword is made of
  have hturbo : ∀ xn xi : List Int, IsCodeword true Sn K xn → IsCodeword true Si K xi → (∀ k, k < K → x[k]? = xn[k]?) →
      (∀ k, k < K / 2 → x[K + 2 * k]? = xn[posY true K k]? ∧ x[K + 2 * k + 1]? = xi[posY true K k]? ∧
      x[2 * K + 2 * k]? = xn[posW true K k]? ∧ x[2 * K + 2 * k + 1]? = xi[posW true K k]?) → t1.take (2 * K) = xn := by
    intro xn xi h1 h2 h3 h4
    refine word_ext hev hxnl h1.1 (fun k hk => by rw [hxn k (by omega), ht10 k hk, h3 k hk]) fun k hk => ?_
    have := h4 k hk
    simp only [posY, posW, if_true] at this
    rw [hxn _ (by omega), hxn _ (by omega), (ht1.2.2 k hk).1, (ht1.2.2 k hk).2]
    exact ⟨this.1, this.2.2.1⟩
  refine (isCodeword_sat he.n hn hxnl hab).bind fun r hr => ?_
  split
  next hrt =>
    unfold TEnc.isCodeword2
    dsimp only
    rw [he.hcore]
    refine (shuffle_sat hev hc (by omega) (by omega)).bind fun s hs => ?_
    refine (copyTo_sat (by omega) (by omega)).bind fun t2 ht2 => ?_
    refine (gather_sat hev (by omega) hx (by omega)).bind fun t3 ht3 => ?_
    have hxi : ∀ k, k < 2 * K → (t3.take (2 * K))[k]? = t3[k]? := fun k hk => List.getElem?_take_of_lt hk
    have hxil : (t3.take (2 * K)).length = 2 * K := by rw [List.length_take]; omega
    have hsh : ∀ k, k < K / 2 → (t3.take (2 * K))[posA true k]? = shuffledA (order core) (t1.take (2 * K)) k ∧
        (t3.take (2 * K))[posB true k]? = shuffledB (order core) (t1.take (2 * K)) k := by
      intro k hk
      have hlt := hc.lt k hk
      simp only [posA, posB, if_true]
      have q := hs.2.2.2 k hk
      simp only [Nat.zero_add] at q
      rw [hxi _ (by omega), hxi _ (by omega), ht3.2.1 _ (by omega), ht3.2.1 _ (by omega), ht2.2, ht2.2, if_pos (by omega), if_pos (by omega)]
      simp only [Nat.sub_zero, Nat.zero_add]
      have h1 := swp_lt hev (show 2 * order core k < K by omega)
      have h2 := swp_lt hev (show 2 * order core k + 1 < K by omega)
      rw [q.1, q.2, ← hxn _ (by omega), ← hxn _ (by omega)]
      exact swp_couple _ k
    obtain ⟨a', b', hab'⟩ := couples (u := t3.take (2 * K)) (p := posA true) (q := posB true) (n := K / 2) fun k hk => by
      have hlt := hc.lt k hk
      rw [(hsh k hk).1, (hsh k hk).2]
      unfold shuffledA shuffledB
      split
      · rw [hxn _ (by omega), hxn _ (by omega), ht10 _ (by omega), ht10 _ (by omega)]
        exact ⟨hb _ (by omega), hb _ (by omega)⟩
      · rw [hxn _ (by omega), hxn _ (by omega), ht10 _ (by omega), ht10 _ (by omega)]
        exact ⟨hb _ (by omega), hb _ (by omega)⟩
    rw [he.i.hN]
    refine (isCodeword_sat he.i hi hxil hab').bind fun r' hr' => ?_
    rw [sat_ok]
    refine ⟨⟨rfl, he.hN, he.n, he.i, rfl, he.hnf, he.uCpy, ?_, ?_, he.parN, he.parI⟩, ?_⟩
    · dsimp only; rw [hs.2.1, he.uI]
    · dsimp only; rw [ht3.1, ht2.1, hs.1, ht1.1, ht0.1, he.xTmp]
    · dsimp only
      rw [hr']
      constructor
      · intro h
        refine ⟨hx, t1.take (2 * K), t3.take (2 * K), hr.1 hrt, h, hsh, fun k hk => by rw [hxn k (by omega), ht10 k hk], fun k hk => ?_⟩
        simp only [posY, posW, if_true]
        rw [hxn _ (by omega), hxn _ (by omega), hxi _ (by omega), hxi _ (by omega), (ht1.2.2 k hk).1, (ht1.2.2 k hk).2, (ht3.2.2 k hk).1,
          (ht3.2.2 k hk).2]
        exact ⟨rfl, rfl, rfl, rfl⟩
      · rintro ⟨_, xn, xi, c1, c2, c3, c4, c5⟩
        have e1 := hturbo xn xi c1 c2 c4 c5
        have e2 : t3.take (2 * K) = xi := by
          refine word_ext hev hxil c2.1 (fun k hk => ?_) fun k hk => ?_
          · have q1 := hsh (k / 2) (by omega)
            have q2 := c3 (k / 2) (by omega)
            rw [e1] at q1
            simp only [posA, posB, if_true] at q1 q2
            rcases Nat.mod_two_eq_zero_or_one k with e | e
            · rw [show k = 2 * (k / 2) by omega, q1.1, q2.1]
            · rw [show k = 2 * (k / 2) + 1 by omega, q1.2, q2.2]
          · have := c5 k hk
            simp only [posY, posW, if_true] at this
            rw [hxi _ (by omega), hxi _ (by omega), (ht3.2.2 k hk).1, (ht3.2.2 k hk).2]
            exact ⟨this.2.1, this.2.2.2⟩
        rw [e2]
        exact c2
  next hrf =>
    rw [sat_ok]
    refine ⟨⟨rfl, he.hN, he.n, he.i, he.hcore, he.hnf, he.uCpy, he.uI, ?_, he.parN, he.parI⟩, (fun h => by cases h), ?_⟩
    · dsimp only; rw [ht1.1, ht0.1, he.xTmp]
    · rintro ⟨_, xn, xi, c1, c2, c3, c4, c5⟩
      exact absurd (hr.2 (by rw [hturbo xn xi c1 c2 c4 c5]; exact c1)) hrf

end Verif.RSCDB
