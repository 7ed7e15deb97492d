import Verif.Model.TurboDec
import Verif.Spec.TurboDec
import Verif.Proof.Turbo
import Verif.Proof.BCJRMain

/-! # Lemmas on the turbo decoder -/

namespace Verif.Turbo
open Exec Verif.RSC Verif.Interleaver Verif.BCJR

variable {R D : Type}

/-- The operations of the turbo decoder are exact on the LLRs of absolute value at most `lim`. -/
structure TS (A : Arith R D) (llr : Int → R) (zero : R) (lim : Int) : Prop where
  zero : zero = llr 0
  add : ∀ x y, |x| ≤ lim → |y| ≤ lim → |x + y| ≤ lim → A.add (llr x) (llr y) = llr (x + y)
  hadd : ∀ x y, |x| ≤ lim → |y| ≤ lim → |x + y| ≤ lim → A.hadd (llr x) (llr y) = llr (x + y)
  neg : ∀ x, |x| ≤ lim → A.neg (llr x) = decide (x < 0)

/-- A component decoder. -/
structure SisoOk (A : Arith R D) (llr : Int → R) (lim M : Int) (c : Code) (K : Nat) (Good : Dec R → Prop) : Prop where
  hK : ∀ d, Good d → d.K = K ∧ d.nff = c.m
  run : ∀ (d : Dec R) (s p : Nat → Int) (sys par ext : List R), Good d → (∀ t, t < K + c.m → |s t| + |p t| ≤ M) →
    (∀ t, t < K + c.m → sys[t]? = some (llr (s t))) → (∀ t, t < K + c.m → par[t]? = some (llr (p t))) → ext.length = K →
    (d.sisoAlt A sys par ext).Sat fun r => Good r.1 ∧ r.2.length = K ∧ ∀ i, i < K → ∃ g, r.2[i]? = some (llr (g - s i)) ∧
      MaxLog true c.m c.g0 c.g1 K s p i g ∧ |g| ≤ lim ∧ |g - s i| ≤ lim

/-- A post-processing and its specification. -/
def PPOk (llr : Int → R) (lim : Int) : PP R → Post → Prop
  | .scale F, .scale f => ∀ b ite x x', |x| ≤ lim → f b ite x = some x' → F b ite (llr x) = llr x'
  | .crc a c, .crc a' c' => a = a' ∧ c = c'
  | _, _ => False

/-- Extrinsic values. -/
def Vec (llr : Int → R) (K : Nat) (e : Nat → Int) (l : List R) : Prop := l.length = K ∧ ∀ t, t < K → l[t]? = some (llr (e t))

theorem maxlog_unique {bf : Bool} {m g0 g1 K : Nat} {s p : Nat → Int} {j : Nat} {h h' : Int} (a : MaxLog bf m g0 g1 K s p j h)
    (b : MaxLog bf m g0 g1 K s p j h') : h = h' := by
  obtain ⟨z0, z1, a0, a1, a2⟩ := a
  obtain ⟨w0, w1, b0, b1, b2⟩ := b
  have := a0.unique b0
  have := a1.unique b1
  omega

section
variable {A : Arith R D} {llr : Int → R} {zero : R} {lim : Int} (ts : TS A llr zero lim)
include ts

/-- A loop that updates a list. -/
theorem fill_sat {α : Type} {n : Nat} {v : Nat → α} {l : List α} {f : Nat → List α → Exec (List α)}
    (hf : ∀ i o, i < n → o[i]? = l[i]? → f i o = wr o i (v i)) (hl : n ≤ l.length) :
    (forN n f l).Sat fun o => o.length = l.length ∧ ∀ j : Nat, o[j]? = if j < n then some (v j) else l[j]? := by
  have _ := ts
  refine forN_inv (fun k (o : List α) => o.length = l.length ∧ ∀ j : Nat, o[j]? = if j < k then some (v j) else l[j]?)
    ⟨rfl, fun j => by rw [if_neg (by omega)]⟩ ?_
  rintro i o hi ⟨h1, h2⟩
  rw [hf i o hi (by rw [h2 i, if_neg (by omega)]), wr_lt (by omega), sat_ok]
  refine ⟨by simpa using h1, fun j => ?_⟩
  rw [List.getElem?_set]
  by_cases hij : i = j
  · subst hij
    rw [if_pos rfl, if_pos (by omega), if_pos (by omega)]
  · rw [if_neg hij, h2 j]
    by_cases hj : j < i
    · rw [if_pos hj, if_pos (by omega)]
    · rw [if_neg hj, if_neg (by omega)]

theorem signs_ext {K : Nat} {h : Nat → Int} {s : List Int} (hl : s.length = K) (hs : ∀ t, t < K → s[t]? = some (if h t < 0 then 1 else 0)) :
    s = signs K h := by
  have _ := ts
  apply List.ext_getElem?
  intro t
  unfold signs
  by_cases ht : t < K
  · rw [hs t ht, getElem?_mapRange, if_pos ht]
  · rw [List.getElem?_eq_none (by omega), List.getElem?_eq_none (by simp; omega)]

theorem decide_sat {K : Nat} {L e : Nat → Int} {sys ext : List R} {s : List Int} (hs : s.length = K) (hL : ∀ t, t < K → sys[t]? = some (llr (L t)))
    (he : Vec llr K e ext) (hlim : ∀ t, t < K → |e t| ≤ lim ∧ |L t| ≤ lim ∧ |e t + L t| ≤ lim) :
    decide' A sys ext s = ok (signs K fun t => e t + L t) := by
  unfold decide'
  obtain ⟨o, ho, h1, h2⟩ := fill_sat ts (n := s.length) (l := s) (v := fun t => if e t + L t < 0 then (1 : Int) else 0)
    (f := fun i s => do
      let a ← rd sys i
      let b ← rd ext i
      wr s i (if A.neg (A.hadd b a) then 1 else 0)) (fun i o hi _ => by
      obtain ⟨b1, b2, b3⟩ := hlim i (by omega)
      rw [rd_eq (hL i (by omega)), bind_ok, rd_eq (he.2 i (by omega)), bind_ok, ts.hadd _ _ b1 b2 b3, ts.neg _ b3]
      simp) (Nat.le_refl _)
  rw [ho]
  congr 1
  exact signs_ext ts (by omega) fun t ht => by rw [h2 t, if_pos (by omega)]

theorem ppsN_sat {K ite : Nat} {L : Nat → Int} {sys : List R} (hL : ∀ t, t < K → sys[t]? = some (llr (L t))) (hLl : ∀ t, t < K → |L t| ≤ lim)
    {ps : List Post} {e e' : Nat → Int} {o : Option (List Int)} (hp : PostN K lim ite L ps e e' o) :
    ∀ {pps : List (PP R)} {ext : List R} {s : List Int}, List.Forall₂ (PPOk llr lim) pps ps → Vec llr K e ext →
      (∀ t, t < K → |e t| ≤ lim ∧ |e t + L t| ≤ lim) → s.length = K →
      (ppsN A zero ite sys pps ext s).Sat fun r => r.1 = pps ∧ Vec llr K e' r.2.1 ∧ (∀ t, t < K → |e' t| ≤ lim ∧ |e' t + L t| ≤ lim) ∧
        r.2.2.1.length = K ∧ r.2.2.2 = o.isSome ∧ ∀ v, o = some v → r.2.2.1 = v := by
  induction hp with
  | nil =>
    intro pps ext s hf hv hb hs
    cases hf
    exact sat_ok.2 ⟨rfl, hv, hb, hs, rfl, fun v h => by cases h⟩
  | @scale f ps e e1 e2 o h1 _ ih =>
    intro pps ext s hf hv hb hs
    cases hf with
    | @cons p _ pps' _ hpp hf =>
      cases p with
      | scale F =>
        unfold ppsN
        simp only [PP.sisoN]
        rw [bind_ok]
        dsimp only
        rw [if_neg (by simp)]
        refine (ih (ext := ext.map (F false ite)) (s := s) hf ⟨by rw [List.length_map]; exact hv.1, fun t ht => ?_⟩ (fun t ht => (h1 t ht).2) hs).bind ?_
        · rw [List.getElem?_map, hv.2 t ht]
          simp only [Option.map_some]
          rw [hpp _ _ _ _ (hb t ht).1 (h1 t ht).1]
        · rintro r ⟨r1, r2⟩
          exact sat_ok.2 ⟨by dsimp only; rw [r1], r2⟩
      | crc _ _ => exact absurd hpp id
      | selfc _ _ _ _ _ _ _ => exact absurd hpp id
      | fnc _ _ _ _ _ => exact absurd hpp id
  | @stop start chk ps e h1 h2 =>
    intro pps ext s hf hv hb hs
    cases hf with
    | @cons p _ pps' _ hpp hf =>
      cases p with
      | crc a c =>
        obtain ⟨rfl, rfl⟩ := hpp
        unfold ppsN
        simp only [PP.sisoN, crcStep]
        rw [if_pos h1, decide_sat ts hs hL hv fun t ht => ⟨(hb t ht).1, hLl t ht, (hb t ht).2⟩, bind_ok, bind_ok, bind_ok]
        dsimp only
        rw [if_pos h2]
        refine sat_ok.2 ⟨rfl, hv, hb, by simp [signs], rfl, fun v h => ?_⟩
        injection h
      | scale _ => exact absurd hpp id
      | selfc _ _ _ _ _ _ _ => exact absurd hpp id
      | fnc _ _ _ _ _ => exact absurd hpp id
  | @go start chk ps e e' o h1 _ ih =>
    intro pps ext s hf hv hb hs
    cases hf with
    | @cons p _ pps' _ hpp hf =>
      cases p with
      | crc a c =>
        obtain ⟨rfl, rfl⟩ := hpp
        unfold ppsN
        simp only [PP.sisoN, crcStep]
        by_cases hst : a ≤ ite
        · rw [if_pos hst, decide_sat ts hs hL hv fun t ht => ⟨(hb t ht).1, hLl t ht, (hb t ht).2⟩, bind_ok, bind_ok, bind_ok]
          dsimp only
          rw [if_neg (fun h => h1 ⟨hst, h⟩)]
          refine (ih hf hv hb (by simp [signs])).bind ?_
          rintro r ⟨r1, r2⟩
          exact sat_ok.2 ⟨by dsimp only; rw [r1], r2⟩
        · rw [if_neg hst, bind_ok, bind_ok]
          dsimp only
          rw [if_neg (by simp)]
          refine (ih hf hv hb hs).bind ?_
          rintro r ⟨r1, r2⟩
          exact sat_ok.2 ⟨by dsimp only; rw [r1], r2⟩
      | scale _ => exact absurd hpp id
      | selfc _ _ _ _ _ _ _ => exact absurd hpp id
      | fnc _ _ _ _ _ => exact absurd hpp id

theorem ppsI_sat {K ite : Nat} {L : Nat → Int} {ps : List Post} {e e' : Nat → Int} (hp : PostI K lim ite L ps e e') :
    ∀ {pps : List (PP R)} {ext : List R}, List.Forall₂ (PPOk llr lim) pps ps → Vec llr K e ext →
      (∀ t, t < K → |e t| ≤ lim ∧ |e t + L t| ≤ lim) →
      (ppsI zero ite pps ext).Sat fun r => r.1 = pps ∧ Vec llr K e' r.2.1 ∧ (∀ t, t < K → |e' t| ≤ lim ∧ |e' t + L t| ≤ lim) ∧ r.2.2 = false := by
  induction hp with
  | nil =>
    intro pps ext hf hv hb
    cases hf
    exact sat_ok.2 ⟨rfl, hv, hb, rfl⟩
  | @scale f ps e e1 e2 h1 _ ih =>
    intro pps ext hf hv hb
    cases hf with
    | @cons p _ pps' _ hpp hf =>
      cases p with
      | scale F =>
        unfold ppsI
        simp only [PP.sisoI]
        rw [bind_ok]
        dsimp only
        rw [if_neg (by simp)]
        refine (ih (ext := ext.map (F true ite)) hf ⟨by rw [List.length_map]; exact hv.1, fun t ht => ?_⟩ (fun t ht => (h1 t ht).2)).bind ?_
        · rw [List.getElem?_map, hv.2 t ht]
          simp only [Option.map_some]
          rw [hpp _ _ _ _ (hb t ht).1 (h1 t ht).1]
        · rintro r ⟨r1, r2⟩
          exact sat_ok.2 ⟨by dsimp only; rw [r1], r2⟩
      | crc _ _ => exact absurd hpp id
      | selfc _ _ _ _ _ _ _ => exact absurd hpp id
      | fnc _ _ _ _ _ => exact absurd hpp id
  | @crc start chk ps e e' _ ih =>
    intro pps ext hf hv hb
    cases hf with
    | @cons p _ pps' _ hpp hf =>
      cases p with
      | crc a c =>
        unfold ppsI
        simp only [PP.sisoI]
        rw [bind_ok]
        dsimp only
        rw [if_neg (by simp)]
        refine (ih hf hv hb).bind ?_
        rintro r ⟨r1, r2⟩
        exact sat_ok.2 ⟨by dsimp only; rw [r1], r2⟩
      | scale _ => exact absurd hpp id
      | selfc _ _ _ _ _ _ _ => exact absurd hpp id
      | fnc _ _ _ _ _ => exact absurd hpp id

theorem addSys_sat {K m : Nat} {s a : Nat → Int} {ls le lo : List R} (hs : ∀ t, t < K + m → ls[t]? = some (llr (s t)))
    (he : Vec llr K a le) (ho : lo.length = K + m) (hl : ∀ t, t < K → |s t| ≤ lim ∧ |a t| ≤ lim ∧ |s t + a t| ≤ lim) :
    (addSys A K m ls le lo).Sat fun o => o.length = K + m ∧ ∀ t, t < K + m → o[t]? = some (llr (plus K s a t)) := by
  unfold addSys
  refine (fill_sat ts (n := K) (l := lo) (v := fun t => llr (s t + a t)) (fun i o hi _ => ?_) (by omega)).bind fun o1 h1 => ?_
  · obtain ⟨b1, b2, b3⟩ := hl i hi
    rw [rd_eq (hs i (by omega)), bind_ok, rd_eq (he.2 i hi), bind_ok, ts.add _ _ b1 b2 b3]
  · refine (forN_inv (fun k (o : List R) => o.length = lo.length ∧ ∀ j : Nat, j < K + k → o[j]? = some (llr (plus K s a j)))
      ⟨h1.1, fun j hj => ?_⟩ ?_).mono fun o h => ⟨by omega, h.2⟩
    · rw [h1.2 j, if_pos (by omega)]
      unfold plus
      rw [if_pos (by omega)]
    · rintro i o hi ⟨g1, g2⟩
      rw [rd_eq (hs (K + i) (by omega)), bind_ok, wr_lt (by omega), sat_ok]
      refine ⟨by simpa using g1, fun j hj => ?_⟩
      rw [List.getElem?_set]
      by_cases hji : K + i = j
      · subst hji
        rw [if_pos rfl, if_pos (by omega)]
        unfold plus
        rw [if_neg (by omega)]
      · rw [if_neg hji]
        exact g2 j (by omega)

end

/-- What stays true of a turbo decoder. -/
structure DInv (llr : Int → R) (cn ci : Code) (K nf nIte : Nat) (core : Core) (bf : Bool) (pps : List (PP R)) (Gn Gi : Dec R → Prop) (d : TDec R) :
    Prop where
  hK : d.K = K
  hN : d.N = 3 * K + 2 * cn.m + 2 * ci.m
  nIte : d.nIte = nIte
  bf : d.buffered = bf
  core : d.core = core
  nf : d.nf = nf
  n : Gn d.n
  i : Gi d.i
  sn : d.sn.length = K + cn.m
  si : d.si.length = K + ci.m
  sen : d.sen.length = K + cn.m
  sei : d.sei.length = K + ci.m
  pn : d.pn.length = K + cn.m
  pi : d.pi.length = K + ci.m
  e1n : d.e1n.length = K
  e2n : d.e2n.length = K
  e1i : d.e1i.length = K
  e2i : d.e2i.length = K
  s : d.s.length = K
  pps : d.pps = pps

/-- The LLRs of a frame are loaded. -/
structure Loaded (llr : Int → R) (cn ci : Code) (K : Nat) (r : Rx) (d : TDec R) : Prop where
  sn : ∀ t, t < K + cn.m → d.sn[t]? = some (llr (r.sn t))
  pn : ∀ t, t < K + cn.m → d.pn[t]? = some (llr (r.pn t))
  si : ∀ t, t < K + ci.m → d.si[t]? = some (llr (r.si t))
  pi : ∀ t, t < K + ci.m → d.pi[t]? = some (llr (r.pi t))

section
variable {A : Arith R D} {llr : Int → R} {zero : R} {lim M : Int} (ts : TS A llr zero lim) {cn ci : Code} {K nf nIte : Nat} {core : Core} {bf : Bool}
  {pps : List (PP R)} {ps : List Post} {Gn Gi : Dec R → Prop} {π ρ : Nat → Nat} {f : Nat}
include ts

theorem second_sat (si : SisoOk A llr lim M ci K Gi) (hp : ItlOk core nf f K π ρ) (hpp : List.Forall₂ (PPOk llr lim) pps ps) {d : TDec R} {r : Rx}
    (hd : DInv llr cn ci K nf nIte core bf pps Gn Gi d) (hl : Loaded llr cn ci K r d) {e b h' e' : Nat → Int} {ite : Nat} (he : Vec llr K e d.e2n)
    (hM : M ≤ lim) (hsi : ∀ t, t < K → |r.si t| ≤ lim) (heb : ∀ t, t < K → |e t| ≤ lim)
    (hb : ∀ t, t < K → b t = e (π t)) (hh : Half ci K M (plus K r.si b) r.pi h')
    (hpi : PostI K lim ite (plus K r.si b) ps (fun t => h' t - plus K r.si b t) e') :
    (d.second A zero f ite).Sat fun q => DInv llr cn ci K nf nIte core bf pps Gn Gi q.1 ∧ Loaded llr cn ci K r q.1 ∧ q.2 = false ∧
      (ite ≠ nIte → ∀ a' : Nat → Int, (∀ t, t < K → a' (π t) = e' t) → Vec llr K a' q.1.e1n ∧ ∀ t, t < K → |a' t| ≤ lim) ∧
      (ite = nIte → ∀ t, t < K → q.1.s[π t]? = some (if e' t + plus K r.si b t < 0 then 1 else 0)) := by
  have hdi : dtail d.i / 2 = ci.m := by unfold dtail; rw [(si.hK _ hd.i).2]; omega
  unfold TDec.second
  rw [hd.core, hd.nf, hd.hK, hdi]
  refine (hp.fwd R d.e2n d.e1i (by rw [he.1]) (by rw [hd.e1i])).bind fun e1i h1 => ?_
  have hbv : Vec llr K b e1i := ⟨by rw [h1.1, hd.e1i], fun t ht => by rw [h1.2 t, if_pos ht, he.2 _ (hp.lt t ht), hb t ht]⟩
  have hpl : ∀ t, t < K → plus K r.si b t = r.si t + b t := fun t ht => by unfold plus; rw [if_pos ht]
  have hLl : ∀ t, t < K → |plus K r.si b t| ≤ lim := fun t ht => by
    have := hh.1 t (by omega)
    have := abs_nonneg (r.pi t)
    omega
  refine (addSys_sat ts hl.si hbv hd.sei fun t ht => ⟨hsi t ht, by rw [hb t ht]; exact heb _ (hp.lt t ht), by rw [← hpl t ht]; exact hLl t ht⟩).bind
    fun sei h2 => ?_
  refine (si.run d.i _ _ sei d.pi d.e2i hd.i hh.1 h2.2 hl.pi hd.e2i).bind ?_
  rintro ⟨di, x⟩ ⟨g1, g2, g3⟩
  dsimp only at g1 g2 g3 ⊢
  have hx : Vec llr K (fun t => h' t - plus K r.si b t) x := by
    refine ⟨g2, fun t ht => ?_⟩
    obtain ⟨g, k1, k2, _⟩ := g3 t ht
    dsimp only
    rw [maxlog_unique (hh.2 t ht) k2]
    exact k1
  rw [hd.pps]
  refine (ppsI_sat ts hpi hpp hx fun t ht => ?_).bind ?_
  · obtain ⟨g, k1, k2, k3, k4⟩ := g3 t ht
    rw [maxlog_unique (hh.2 t ht) k2, sub_add_cancel]
    exact ⟨k4, k3⟩
  rintro ⟨pps', x', st⟩ ⟨q1, q2, q3, q4⟩
  dsimp only at q1 q2 q3 q4 ⊢
  subst q1 q4
  rw [Bool.or_false, hd.nIte]
  by_cases hlast : ite = nIte
  · subst hlast
    rw [show (ite == ite) = true by simp]
    unfold addPost hardDecide
    rw [if_pos rfl]
    refine (fill_sat ts (n := K) (l := x') (v := fun t => llr (e' t + plus K r.si b t)) (fun i o hi ho => ?_) (by rw [q2.1])).bind fun x2 h3 => ?_
    · rw [q2.2 i hi] at ho
      rw [rd_eq ho, bind_ok, rd_eq (h2.2 i (by omega)), bind_ok, ts.add _ _ (q3 i hi).1 (hLl i hi) (q3 i hi).2]
    have lx := q2.1
    refine (hp.bwd R x2 d.e1n (by omega) (by rw [hd.e1n])).bind fun e1n h4 => ?_
    rw [if_pos rfl]
    have hq : ∀ i, i < K → e1n[i]? = some (llr (e' (ρ i) + plus K r.si b (ρ i))) := fun i hi => by
      rw [h4.2 i, if_pos hi, h3.2, if_pos (hp.lt' i hi)]
    refine (fill_sat ts (n := K) (l := d.s) (v := fun t => if e' (ρ t) + plus K r.si b (ρ t) < 0 then (1 : Int) else 0) (fun i o hi ho => ?_)
      (by rw [hd.s])).bind fun s h5 => ?_
    · rw [rd_eq (hq i hi), bind_ok, ts.neg _ (q3 _ (hp.lt' i hi)).2]
      simp
    refine sat_ok.2 ⟨⟨rfl, hd.hN, rfl, hd.bf, rfl, rfl, hd.n, g1, hd.sn, hd.si, hd.sen, h2.1, hd.pn, hd.pi, by rw [h4.1, hd.e1n], hd.e2n, hbv.1,
      by rw [h3.1, lx], by rw [h5.1, hd.s], rfl⟩, ⟨hl.sn, hl.pn, hl.si, hl.pi⟩, rfl, fun h => absurd rfl h, fun _ t ht => ?_⟩
    dsimp only
    rw [h5.2, if_pos (hp.lt t ht), hp.inv' t ht]
  · rw [show (ite == nIte) = false by simpa using hlast]
    unfold addPost hardDecide
    rw [if_neg (by simp), bind_ok]
    have lx := q2.1
    refine (hp.bwd R x' d.e1n (by omega) (by rw [hd.e1n])).bind fun e1n h4 => ?_
    rw [if_neg (by simp), bind_ok]
    refine sat_ok.2 ⟨⟨rfl, hd.hN, rfl, hd.bf, rfl, rfl, hd.n, g1, hd.sn, hd.si, hd.sen, h2.1, hd.pn, hd.pi, by rw [h4.1, hd.e1n], hd.e2n, hbv.1,
      lx, hd.s, rfl⟩, ⟨hl.sn, hl.pn, hl.si, hl.pi⟩, rfl, fun _ a' ha => ⟨⟨by rw [h4.1, hd.e1n], fun t ht => ?_⟩, fun t ht => ?_⟩, fun h => absurd h hlast⟩
    · dsimp only
      rw [h4.2 t, if_pos ht, q2.2 _ (hp.lt' t ht), ← ha _ (hp.lt' t ht), hp.inv t ht]
    · rw [← hp.inv t ht, ha _ (hp.lt' t ht)]
      exact (q3 _ (hp.lt' t ht)).1

theorem first_sat (sn : SisoOk A llr lim M cn K Gn) (hpp : List.Forall₂ (PPOk llr lim) pps ps) {d : TDec R} {r : Rx}
    (hd : DInv llr cn ci K nf nIte core bf pps Gn Gi d) (hl : Loaded llr cn ci K r d) {a h e : Nat → Int} {ite : Nat} {o : Option (List Int)}
    (ha : Vec llr K a d.e1n) (hal : ∀ t, t < K → |a t| ≤ lim) (hM : M ≤ lim) (hsn : ∀ t, t < K → |r.sn t| ≤ lim)
    (hh : Half cn K M (plus K r.sn a) r.pn h) (hpn : PostN K lim ite (plus K r.sn a) ps (fun t => h t - plus K r.sn a t) e o) {Q : TDec R × Bool → Prop}
    (hstop : ∀ d', DInv llr cn ci K nf nIte core bf pps Gn Gi d' → ∀ v, o = some v → d'.s = v → Q (d', true))
    (hgo : ∀ d', DInv llr cn ci K nf nIte core bf pps Gn Gi d' → Loaded llr cn ci K r d' → o = none → Vec llr K e d'.e2n → (∀ t, t < K → |e t| ≤ lim) →
      (d'.second A zero f ite).Sat Q) : (d.iteration A zero f ite).Sat Q := by
  have hdn : dtail d.n / 2 = cn.m := by unfold dtail; rw [(sn.hK _ hd.n).2]; omega
  unfold TDec.iteration
  rw [hd.hK, hdn]
  have hpl : ∀ t, t < K → plus K r.sn a t = r.sn t + a t := fun t ht => by unfold plus; rw [if_pos ht]
  have hLl : ∀ t, t < K → |plus K r.sn a t| ≤ lim := fun t ht => by
    have := hh.1 t (by omega)
    have := abs_nonneg (r.pn t)
    omega
  refine (addSys_sat ts hl.sn ha hd.sen fun t ht => ⟨hsn t ht, hal t ht, by rw [← hpl t ht]; exact hLl t ht⟩).bind fun sen h2 => ?_
  refine (sn.run d.n _ _ sen d.pn d.e2n hd.n hh.1 h2.2 hl.pn hd.e2n).bind ?_
  rintro ⟨dn, x⟩ ⟨g1, g2, g3⟩
  dsimp only at g1 g2 g3 ⊢
  have hx : Vec llr K (fun t => h t - plus K r.sn a t) x := by
    refine ⟨g2, fun t ht => ?_⟩
    obtain ⟨g, k1, k2, _⟩ := g3 t ht
    dsimp only
    rw [maxlog_unique (hh.2 t ht) k2]
    exact k1
  rw [hd.pps]
  refine (ppsN_sat ts (sys := sen) (fun t ht => h2.2 t (by omega)) hLl hpn hpp hx (fun t ht => ?_) hd.s).bind ?_
  · obtain ⟨g, k1, k2, k3, k4⟩ := g3 t ht
    rw [maxlog_unique (hh.2 t ht) k2, sub_add_cancel]
    exact ⟨k4, k3⟩
  rintro ⟨pps', x', s', st⟩ ⟨q1, q2, q3, q4, q5, q6⟩
  dsimp only at q1 q2 q3 q4 q5 q6 ⊢
  subst q1
  have hdi : DInv llr cn ci K nf nIte core bf pps' Gn Gi { d with n := dn, sen := sen, e2n := x', s := s', pps := pps' } :=
    ⟨hd.hK, hd.hN, hd.nIte, hd.bf, hd.core, hd.nf, g1, hd.i, hd.sn, hd.si, h2.1, hd.sei, hd.pn, hd.pi, hd.e1n, q2.1, hd.e1i, hd.e2i, q4, rfl⟩
  rw [hd.hK] at hdi
  cases o with
  | some v =>
    rw [if_pos (by rw [q5]; rfl)]
    exact sat_ok.2 (hstop _ hdi v rfl (q6 v rfl))
  | none =>
    rw [if_neg (by rw [q5]; simp)]
    exact hgo _ hdi ⟨hl.sn, hl.pn, hl.si, hl.pi⟩ rfl q2 fun t ht => (q3 t ht).1

/-- The iterations. -/
theorem loop_sat (sn : SisoOk A llr lim M cn K Gn) (si : SisoOk A llr lim M ci K Gi) (hp : ItlOk core nf f K π ρ)
    (hpp : List.Forall₂ (PPOk llr lim) pps ps) {d : TDec R} {r : Rx} (hd : DInv llr cn ci K nf nIte core bf pps Gn Gi d) (hl : Loaded llr cn ci K r d)
    (hM : M ≤ lim) (hsn : ∀ t, t < K → |r.sn t| ≤ lim) (hsi : ∀ t, t < K → |r.si t| ≤ lim) {a : Nat → Int} (ha : Vec llr K a d.e1n)
    (hal : ∀ t, t < K → |a t| ≤ lim) (hn : 0 < nIte) {v : List Int} (hr : Run cn ci K π M lim ps r nIte 1 a v) :
    (forN nIte (fun k (st : TDec R × Bool) => if st.2 then ok st else st.1.iteration A zero f (k + 1)) (d, false)).Sat fun q =>
      DInv llr cn ci K nf nIte core bf pps Gn Gi q.1 ∧ q.1.s = v := by
  refine (forN_inv (fun k (q : TDec R × Bool) => DInv llr cn ci K nf nIte core bf pps Gn Gi q.1 ∧ ((q.2 = true ∧ q.1.s = v) ∨
    (q.2 = false ∧ k = nIte ∧ q.1.s = v) ∨ (q.2 = false ∧ k < nIte ∧ Loaded llr cn ci K r q.1 ∧ ∃ a, Vec llr K a q.1.e1n ∧ (∀ t, t < K → |a t| ≤ lim) ∧
      Run cn ci K π M lim ps r nIte (k + 1) a v))) ⟨hd, Or.inr (Or.inr ⟨rfl, hn, hl, a, ha, hal, hr⟩)⟩ ?_).mono ?_
  · rintro k ⟨d, st⟩ hk ⟨hd, h⟩
    dsimp only at hd h ⊢
    rcases h with ⟨rfl, hs⟩ | ⟨_, hk', _⟩ | ⟨rfl, _, hl, a, ha, hal, hr⟩
    · rw [if_pos rfl]
      exact sat_ok.2 ⟨hd, Or.inl ⟨rfl, hs⟩⟩
    · omega
    rw [if_neg (by simp)]
    cases hr with
    | @stop _ _ h e _ hle hh hpn =>
      refine first_sat ts sn hpp hd hl ha hal hM hsn hh hpn (fun d' hd' w hw hs => ?_) (fun d' _ _ ho => by cases ho)
      injection hw with hw
      exact ⟨hd', Or.inl ⟨rfl, by rw [hw]; exact hs⟩⟩
    | @last _ h e b h' e' _ hh hpn hb hh' hpi hv hvt =>
      refine first_sat ts sn hpp hd hl ha hal hM hsn hh hpn (fun d' _ w hw => by cases hw) (fun d' hd' hl' _ he hel => ?_)
      refine (second_sat ts si hp hpp hd' hl' he hM hsi hel hb hh' hpi).mono ?_
      rintro ⟨d'', st⟩ ⟨i1, i2, i3, i4, i5⟩
      refine ⟨i1, Or.inr (Or.inl ⟨i3, rfl, ?_⟩)⟩
      apply List.ext_getElem?
      intro t
      by_cases ht : t < K
      · have := i5 rfl (ρ t) (hp.lt' t ht)
        rw [hp.inv t ht] at this
        have h2 := hvt (ρ t) (hp.lt' t ht)
        rw [hp.inv t ht] at h2
        rw [this, h2]
      · rw [List.getElem?_eq_none (by rw [i1.s]; omega), List.getElem?_eq_none (by omega)]
    | @step _ _ h e b h' e' a' _ hlt hh hpn hb hh' hpi ha' hr' =>
      refine first_sat ts sn hpp hd hl ha hal hM hsn hh hpn (fun d' _ w hw => by cases hw) (fun d' hd' hl' _ he hel => ?_)
      refine (second_sat ts si hp hpp hd' hl' he hM hsi hel hb hh' hpi).mono ?_
      rintro ⟨d'', st⟩ ⟨i1, i2, i3, i4, i5⟩
      obtain ⟨j1, j2⟩ := i4 (by omega) a' ha'
      exact ⟨i1, Or.inr (Or.inr ⟨i3, hlt, i2, a', j1, j2, hr'⟩)⟩
  · rintro ⟨d, st⟩ ⟨hd, h⟩
    rcases h with ⟨_, hs⟩ | ⟨_, _, hs⟩ | ⟨_, h, _⟩
    · exact ⟨hd, hs⟩
    · exact ⟨hd, hs⟩
    · omega

/-- Received LLRs seen from the two codes. -/
def rxOf (bf : Bool) (K mn mi : Nat) (π : Nat → Nat) (y : List Int) : Rx := ⟨sysN bf K y, parN bf K mn y, sysI bf K mn π y, parI bf K mn mi y⟩

theorem map_at {y : List Int} {j : Nat} (hj : j < y.length) : (y.map llr)[j]? = some (llr (at0 y j)) := by
  have _ := ts
  rw [List.getElem?_map, at0, List.getD_eq_getElem?_getD, List.getElem?_eq_getElem hj]
  rfl

theorem bufferedLoad_sat {d : TDec R} (hp : ItlOk core nf f K π ρ) (hn : ∀ d, Gn d → d.K = K ∧ d.nff = cn.m) (hi : ∀ d, Gi d → d.K = K ∧ d.nff = ci.m)
    (hd : DInv llr cn ci K nf nIte core bf pps Gn Gi d) {y : List Int} (hy : y.length = 3 * K + 2 * cn.m + 2 * ci.m) :
    (d.bufferedLoad zero f (y.map llr)).Sat fun d' => DInv llr cn ci K nf nIte core bf pps Gn Gi d' ∧
      Loaded llr cn ci K (rxOf true K cn.m ci.m π y) d' ∧ Vec llr K (fun _ => 0) d'.e1n := by
  have hn := hn _ hd.n
  have hi := hi _ hd.i
  have t1 : dtail d.n / 2 = cn.m := by unfold dtail; rw [hn.2]; omega
  have t2 : dtail d.i / 2 = ci.m := by unfold dtail; rw [hi.2]; omega
  have t3 : dN d.n = 2 * (K + cn.m) := by unfold dN; rw [hn.1, hn.2]
  have ly : (y.map llr).length = 3 * K + 2 * cn.m + 2 * ci.m := by rw [List.length_map]; exact hy
  have l1 := hd.sn
  have l2 := hd.pn
  have l3 := hd.si
  have l4 := hd.pi
  unfold TDec.bufferedLoad
  rw [t1, t2, t3, hn.1, hd.hK, hd.hN, hd.core, hd.nf]
  refine (copyTo_sat (by omega) (by omega)).bind fun sn h1 => ?_
  refine (copyTo_sat (by omega) (by omega)).bind fun pn h2 => ?_
  refine (copyTo_sat (by omega) (by omega)).bind fun si h3 => ?_
  refine (copyTo_sat (by omega) (by omega)).bind fun pi h4 => ?_
  refine (hp.fwd R sn si (by omega) (by omega)).bind fun si' h5 => ?_
  have hsn : ∀ t, t < K + cn.m → sn[t]? = some (llr (at0 y t)) := fun t ht => by
    rw [h1.2 t, if_pos (by omega), show 0 + (t - 0) = t by omega]
    exact map_at ts (by omega)
  refine sat_ok.2 ⟨⟨rfl, rfl, hd.nIte, hd.bf, rfl, rfl, hd.n, hd.i, by dsimp only; omega, by dsimp only; omega, hd.sen, hd.sei, by dsimp only; omega,
    by dsimp only; omega, by simp [hd.e1n], hd.e2n, hd.e1i, hd.e2i, hd.s, hd.pps⟩, ⟨fun t ht => ?_, fun t ht => ?_, fun t ht => ?_, fun t ht => ?_⟩,
    ⟨by simp [hd.e1n], fun t ht => ?_⟩⟩
  · exact hsn t ht
  · dsimp only
    rw [h2.2 t, if_pos (by omega), map_at ts (by omega)]
    simp only [rxOf, parN, if_true, show K + cn.m + (t - 0) = K + cn.m + t by omega]
  · dsimp only
    rw [h5.2 t]
    by_cases hk : t < K
    · have := hp.lt t hk
      rw [if_pos hk, hsn _ (by omega)]
      simp [rxOf, sysI, sysN, hk]
    · rw [if_neg hk, h3.2 t, if_pos (by omega), map_at ts (by omega)]
      simp [rxOf, sysI, hk]
  · dsimp only
    rw [h4.2 t, if_pos (by omega), map_at ts (by omega)]
    simp only [rxOf, parI, if_true, show 2 * (K + cn.m) + ci.m + (t - 0) = 2 * (K + cn.m) + ci.m + t by omega]
  · dsimp only
    rw [List.getElem?_replicate, if_pos (by rw [hd.e1n]; exact ht), ts.zero]

theorem loadTail_sat {y : List Int} {s p : List R} {n o : Nat} (hs : s.length = K + n) (hp : p.length = K + n) (hy : o + 2 * n ≤ y.length) :
    (loadTail K n o (y.map llr) s p).Sat fun q => q.1.length = K + n ∧ q.2.length = K + n ∧ (∀ t, t < K → q.1[t]? = s[t]? ∧ q.2[t]? = p[t]?) ∧
      ∀ t, K ≤ t → t < K + n → q.1[t]? = some (llr (at0 y (o + 2 * (t - K)))) ∧ q.2[t]? = some (llr (at0 y (o + 2 * (t - K) + 1))) := by
  unfold loadTail
  refine (forN_inv (fun k (q : List R × List R) => q.1.length = K + n ∧ q.2.length = K + n ∧ (∀ t, t < K → q.1[t]? = s[t]? ∧ q.2[t]? = p[t]?) ∧
      ∀ t, K ≤ t → t < K + k → q.1[t]? = some (llr (at0 y (o + 2 * (t - K)))) ∧ q.2[t]? = some (llr (at0 y (o + 2 * (t - K) + 1))))
    ⟨hs, hp, fun t _ => ⟨rfl, rfl⟩, fun t h1 h2 => absurd h1 (by omega)⟩ ?_)
  rintro i ⟨s', p'⟩ hi ⟨g1, g2, g3, g4⟩
  dsimp only at g1 g2 g3 g4 ⊢
  rw [rd_eq (map_at ts (by omega)), bind_ok, wr_lt (by omega), bind_ok, rd_eq (map_at ts (by omega)), bind_ok, wr_lt (by omega), bind_ok, sat_ok]
  dsimp only
  refine ⟨by simpa using g1, by simpa using g2, fun t ht => ?_, fun t h1 h2 => ?_⟩
  · rw [List.getElem?_set, if_neg (by omega), List.getElem?_set, if_neg (by omega)]
    exact g3 t ht
  · rw [List.getElem?_set, List.getElem?_set]
    by_cases h : K + i = t
    · subst h
      rw [if_pos rfl, if_pos (by omega), if_pos rfl, if_pos (by omega), show K + i - K = i by omega]
      exact ⟨rfl, rfl⟩
    · rw [if_neg h, if_neg h]
      exact g4 t h1 (by omega)

theorem standardLoad_sat {d : TDec R} (hp : ItlOk core nf f K π ρ) (hn : ∀ d, Gn d → d.K = K ∧ d.nff = cn.m) (hi : ∀ d, Gi d → d.K = K ∧ d.nff = ci.m)
    (hd : DInv llr cn ci K nf nIte core bf pps Gn Gi d) {y : List Int} (hy : y.length = 3 * K + 2 * cn.m + 2 * ci.m) :
    (d.standardLoad zero f (y.map llr)).Sat fun d' => DInv llr cn ci K nf nIte core bf pps Gn Gi d' ∧
      Loaded llr cn ci K (rxOf false K cn.m ci.m π y) d' ∧ Vec llr K (fun _ => 0) d'.e1n := by
  have hn := hn _ hd.n
  have hi := hi _ hd.i
  have t1 : dtail d.n / 2 = cn.m := by unfold dtail; rw [hn.2]; omega
  have t2 : dtail d.i / 2 = ci.m := by unfold dtail; rw [hi.2]; omega
  have t3 : dtail d.n = 2 * cn.m := by unfold dtail; rw [hn.2]
  have ly : (y.map llr).length = 3 * K + 2 * cn.m + 2 * ci.m := by rw [List.length_map]; exact hy
  have l1 := hd.sn
  have l2 := hd.pn
  have l3 := hd.si
  have l4 := hd.pi
  unfold TDec.standardLoad
  rw [t1, t2, t3, hd.hK, hd.core, hd.nf]
  refine Sat.bind (P := fun q : List R × List R × List R => q.1.length = K + cn.m ∧ q.2.1.length = K + cn.m ∧ q.2.2.length = K + ci.m ∧
    ∀ t, t < K → q.1[t]? = some (llr (at0 y (3 * t))) ∧ q.2.1[t]? = some (llr (at0 y (3 * t + 1))) ∧ q.2.2[t]? = some (llr (at0 y (3 * t + 2)))) ?_ ?_
  · refine forN_inv (fun k (q : List R × List R × List R) => q.1.length = K + cn.m ∧ q.2.1.length = K + cn.m ∧ q.2.2.length = K + ci.m ∧
      ∀ t, t < k → q.1[t]? = some (llr (at0 y (3 * t))) ∧ q.2.1[t]? = some (llr (at0 y (3 * t + 1))) ∧ q.2.2[t]? = some (llr (at0 y (3 * t + 2))))
      ⟨l1, l2, l4, fun t ht => absurd ht (by omega)⟩ ?_
    rintro i ⟨a, b, c⟩ hik ⟨g1, g2, g3, g4⟩
    dsimp only at g1 g2 g3 g4 ⊢
    rw [rd_eq (map_at ts (by omega)), bind_ok, wr_lt (by omega), bind_ok, rd_eq (map_at ts (by omega)), bind_ok, wr_lt (by omega), bind_ok,
      rd_eq (map_at ts (by omega)), bind_ok, wr_lt (by omega), bind_ok, sat_ok]
    dsimp only
    refine ⟨by simpa using g1, by simpa using g2, by simpa using g3, fun t ht => ?_⟩
    rw [List.getElem?_set, List.getElem?_set, List.getElem?_set]
    by_cases h : i = t
    · subst h
      rw [if_pos rfl, if_pos (by omega), if_pos rfl, if_pos (by omega), if_pos rfl, if_pos (by omega), Nat.mul_comm i 3]
      exact ⟨rfl, rfl, rfl⟩
    · rw [if_neg h, if_neg h, if_neg h]
      exact g4 t (by omega)
  · rintro ⟨a, b, c⟩ ⟨g1, g2, g3, g4⟩
    dsimp only at g1 g2 g3 g4 ⊢
    refine (hp.fwd R a d.si (by omega) (by omega)).bind fun si h1 => ?_
    refine (loadTail_sat ts g1 g2 (by omega)).bind fun tn h2 => ?_
    refine (loadTail_sat ts (s := si) (by omega) g3 (by omega)).bind fun ti h3 => ?_
    obtain ⟨a1, a2, a3, a4⟩ := h2
    obtain ⟨b1, b2, b3, b4⟩ := h3
    refine sat_ok.2 ⟨⟨rfl, hd.hN, hd.nIte, hd.bf, rfl, rfl, hd.n, hd.i, a1, b1, hd.sen, hd.sei, a2, b2, by simp [hd.e1n], hd.e2n, hd.e1i, hd.e2i, hd.s,
      hd.pps⟩, ⟨fun t ht => ?_, fun t ht => ?_, fun t ht => ?_, fun t ht => ?_⟩, ⟨by simp [hd.e1n], fun t ht => ?_⟩⟩
    · simp only [rxOf, sysN, Bool.false_eq_true, if_false]
      by_cases hk : t < K
      · rw [if_pos hk, (a3 t hk).1, (g4 t hk).1]
      · rw [if_neg hk, (a4 t (by omega) ht).1, Nat.mul_comm K 3]
    · simp only [rxOf, parN, Bool.false_eq_true, if_false]
      by_cases hk : t < K
      · rw [if_pos hk, (a3 t hk).2, (g4 t hk).2.1]
      · rw [if_neg hk, (a4 t (by omega) ht).2, Nat.mul_comm K 3]
    · simp only [rxOf, sysI, sysN, Bool.false_eq_true, if_false]
      by_cases hk : t < K
      · rw [if_pos hk, if_pos (hp.lt t hk), (b3 t hk).1, h1.2 t, if_pos hk, (g4 _ (hp.lt t hk)).1]
      · rw [if_neg hk, (b4 t (by omega) ht).1, Nat.mul_comm K 3]
    · simp only [rxOf, parI, Bool.false_eq_true, if_false]
      by_cases hk : t < K
      · rw [if_pos hk, (b3 t hk).2, (g4 t hk).2.2]
      · rw [if_neg hk, (b4 t (by omega) ht).2, Nat.mul_comm K 3]
    · dsimp only
      rw [List.getElem?_replicate, if_pos (by rw [hd.e1n]; exact ht), ts.zero]

/-- Decoding of a frame. -/
theorem decode_sat (sn : SisoOk A llr lim M cn K Gn) (si : SisoOk A llr lim M ci K Gi) (hp : ItlOk core nf f K π ρ)
    (hpp : List.Forall₂ (PPOk llr lim) pps ps) {d : TDec R} (hd : DInv llr cn ci K nf nIte core bf pps Gn Gi d) (hM : M ≤ lim) {y : List Int}
    (hy : y.length = 3 * K + 2 * cn.m + 2 * ci.m) (hyl : ∀ j, |at0 y j| ≤ lim) (hn : 0 < nIte) {v : List Int}
    (hr : Run cn ci K π M lim ps (rxOf bf K cn.m ci.m π y) nIte 1 (fun _ => 0) v) :
    (d.decode A zero f (y.map llr)).Sat fun q => DInv llr cn ci K nf nIte core bf pps Gn Gi q.1 ∧ q.2 = v := by
  have hload : (d.load zero f (y.map llr)).Sat fun d' => DInv llr cn ci K nf nIte core bf pps Gn Gi d' ∧
      Loaded llr cn ci K (rxOf bf K cn.m ci.m π y) d' ∧ Vec llr K (fun _ => 0) d'.e1n := by
    unfold TDec.load
    rw [hd.bf]
    cases bf with
    | true => exact bufferedLoad_sat ts hp sn.hK si.hK hd hy
    | false => exact standardLoad_sat ts hp sn.hK si.hK hd hy
  have hl0 : (0 : Int) ≤ lim := le_trans (abs_nonneg _) (hyl 0)
  have hs : ∀ t, |sysN bf K y t| ≤ lim := by
    intro t
    unfold sysN
    split
    · exact hyl _
    · split <;> exact hyl _
  unfold TDec.decode
  refine hload.bind ?_
  rintro d' ⟨h1, h2, h3⟩
  rw [h1.nIte]
  refine (loop_sat ts sn si hp hpp h1 h2 hM (fun t _ => hs t) (fun t ht => ?_) h3 (fun t _ => by simpa using hl0) hn hr).bind ?_
  · simp only [rxOf, sysI, if_pos ht]
    exact hs _
  · rintro ⟨d'', st⟩ ⟨g1, g2⟩
    refine sat_ok.2 ⟨g1, ?_⟩
    dsimp only at g1 g2 ⊢
    rw [List.take_of_length_le (by rw [g1.s, g1.hK]), g2]

end
end Verif.Turbo
