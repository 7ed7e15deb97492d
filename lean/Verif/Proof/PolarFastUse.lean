import Verif.Proof.PolarFastParse
import Verif.Proof.TurboPres

/-! # The fast decoder as an object -/

namespace Verif.PolarFast
open Exec Verif.PolarSC Verif.Polar Verif.BCJR

variable {R : Type} {w : Nat}

/-! ## Extraction of the information bits -/

theorem copyTo_put {s v : List (BitVec w)} {so n k : Nat} (h1 : so + n ≤ s.length) (h2 : k + n ≤ v.length) : copyTo s so n v k = ok (put v k (sl s so n)) := by
  have hl := sl_length h1
  unfold copyTo
  have := forN_splice (n := n) (c := k) (l := v) (vals := sl s so n) (body := fun i d => do let x ← rd s (so + i); wr d (k + i) x) hl h2
    (fun i l' x hx _ _ => by simp only [rd_sl hx, bind_ok])
  rw [this]
  rfl

theorem unplace_r0 : ∀ (n : Nat) (x : List (BitVec w)), unplace (List.replicate n true) x = []
  | 0, _ => rfl
  | n + 1, x => by rw [List.replicate_succ]; simp only [unplace]; exact unplace_r0 n _

theorem unplace_r1 : ∀ {n : Nat} {x : List (BitVec w)}, x.length = n → unplace (List.replicate n false) x = x
  | 0, [], _ => rfl
  | n + 1, a :: x, h => by
    rw [List.replicate_succ]; simp only [unplace, List.headD_cons, List.tail_cons]
    rw [unplace_r1 (by simpa using h)]
  | 0, _ :: _, h => by cases h
  | _ + 1, [], h => by cases h

theorem cnt_r0 (n : Nat) : cnt (List.replicate n true) = 0 := by simp [cnt]
theorem cnt_r1 (n : Nat) : cnt (List.replicate n false) = n := by simp [cnt]

theorem extractLeaf_eq {s v : List (BitVec w)} {c : NT × Nat} {o k : Nat} (hc : c.1.terminal = true) (h0 : 0 < c.2) (ho : o + c.2 ≤ s.length) (hk : k + cnt (expand c) ≤ v.length) :
    extractLeaf s c (v, o, k) = ok (put v k (unplace (expand c) (sl s o c.2)), o + c.2, k + cnt (expand c)) := by
  obtain ⟨t, n⟩ := c
  simp only at h0 ho
  have hl := sl_length ho
  cases t <;> simp [NT.terminal] at hc <;> simp only [extractLeaf, expand] at hk ⊢
  · rw [unplace_r0, cnt_r0, put_nil]; rfl
  · rw [cnt_r1] at hk ⊢
    rw [copyTo_put ho hk, bind_ok, unplace_r1 hl]
  · have e : sl s o n = sl s o (n - 1) ++ sl s (o + n - 1) 1 := by
      obtain ⟨m, rfl⟩ : ∃ m, n = m + 1 := ⟨n - 1, by omega⟩
      unfold sl
      rw [Nat.add_sub_cancel, show o + (m + 1) - 1 = o + m by omega, List.take_add, List.drop_drop]
    rw [cnt_append, cnt_r0] at hk
    have h1 : cnt [false] = 1 := rfl
    rw [h1] at hk
    rw [copyTo_put (by omega) (by omega), bind_ok, cnt_append, cnt_r0, h1, e, unplace_append (by rw [sl_length (by omega)]; simp), unplace_r0]
    have e2 : unplace [false] (sl s (o + n - 1) 1) = sl s (o + n - 1) 1 := unplace_r1 (n := 1) (sl_length (by omega))
    rw [e2, List.nil_append, Nat.zero_add]
  · have hl1 := sl_length (l := s) (a := o + 1) (n := n - 1) (by omega)
    have e : (sl s o n).tail = sl s (o + 1) (n - 1) := by
      unfold sl
      rw [← List.drop_one, List.drop_take, List.drop_drop]
    have h1 : cnt (true :: List.replicate (n - 1) false) = n - 1 := by
      have := cnt_append [true] (List.replicate (n - 1) false)
      rw [cnt_r1] at this
      rw [show true :: List.replicate (n - 1) false = [true] ++ List.replicate (n - 1) false from rfl, this]
      simp [cnt]
    rw [h1] at hk ⊢
    simp only [unplace]
    rw [copyTo_put (by omega) hk, bind_ok, e, unplace_r1 hl1]

theorem flatMap_length : ∀ {lv : List (NT × Nat)}, (∀ c ∈ lv, c.1.terminal = true ∧ 0 < c.2) → (lv.flatMap expand).length = (lv.map (·.2)).sum
  | [], _ => rfl
  | c :: lv, h => by
    have h1 := h c List.mem_cons_self
    rw [List.flatMap_cons, List.length_append, expand_length h1.1 h1.2, flatMap_length fun d hd => h d (List.mem_cons_of_mem _ hd), List.map_cons, List.sum_cons]

theorem extract_eq {lv : List (NT × Nat)} {fr : List Bool} {s v : List (BitVec w)} (hlv : ∀ c ∈ lv, c.1.terminal = true ∧ 0 < c.2) (hfr : lv.flatMap expand = fr)
    (hs : s.length = fr.length) (hv : v.length = cnt fr) : extract lv s v = ok (unplace fr s) := by
  unfold extract
  suffices ∀ m, m ≤ lv.length → forN m (fun i p => do let c ← rd lv i; extractLeaf s c p) (v, 0, 0) =
      ok (put v 0 (unplace ((lv.take m).flatMap expand) (sl s 0 ((lv.take m).flatMap expand).length)), ((lv.take m).flatMap expand).length, cnt ((lv.take m).flatMap expand)) by
    rw [this lv.length (Nat.le_refl _), List.take_of_length_le (Nat.le_refl _), bind_ok, hfr]
    simp only
    have e : sl s 0 fr.length = s := by unfold sl; rw [List.drop_zero, List.take_of_length_le (by omega)]
    rw [e, put_all (by rw [unplace_length]; omega)]
  intro m
  induction m with
  | zero => intro _; simp [forN, cnt, unplace, put_nil]
  | succ m ih =>
    intro hm
    have hm' : m < lv.length := by omega
    obtain ⟨c1, c2⟩ := hlv lv[m] (List.getElem_mem hm')
    have hsplit : (lv.take (m + 1)).flatMap expand = (lv.take m).flatMap expand ++ expand lv[m] := by
      rw [← List.take_append_getElem hm', List.flatMap_append]; simp
    have hall : lv.flatMap expand = (lv.take (m + 1)).flatMap expand ++ (lv.drop (m + 1)).flatMap expand := by rw [← List.flatMap_append, List.take_append_drop]
    rw [hfr, hsplit] at hall
    have hlen := congrArg List.length hall
    have hcnt := congrArg cnt hall
    rw [List.length_append, List.length_append, expand_length c1 c2] at hlen
    rw [cnt_append, cnt_append] at hcnt
    set G := (lv.take m).flatMap expand with hG
    rw [forN_succ, ih (by omega), bind_ok, rd_lt hm', bind_ok]
    have hul : (unplace G (sl s 0 G.length)).length = cnt G := unplace_length _ _
    rw [extractLeaf_eq c1 c2 (by omega) (by rw [put_length (by omega)]; omega), hsplit, cnt_append, List.length_append, expand_length c1 c2]
    congr 2
    have := put_put (v := v) (k := 0) (x := unplace G (sl s 0 G.length)) (y := unplace (expand lv[m]) (sl s G.length lv[m].2)) (by rw [hul, unplace_length]; omega)
    rw [hul, Nat.zero_add] at this
    rw [this, ← unplace_append (by rw [sl_length (by omega)])]
    congr 2
    unfold sl
    rw [List.take_add, List.drop_zero]

/-! ## Sizes -/

section
variable (A : Api R w)

theorem lenLoop {α : Type} {n : Nat} {f : Nat → List α → Exec (List α)} {a b : List α} (hf : ∀ i a b, f i a = ok b → b.length = a.length) (h : forN n f a = ok b) : b.length = a.length :=
  forN_pres (fun x => x.length = a.length) (fun i x y _ hx e => by rw [hf i x y e, hx]) rfl h

theorem wr_len {α : Type} {l l' : List α} {i : Nat} {x : α} (h : wr l i x = ok l') : l'.length = l.length := by
  obtain ⟨_, rfl⟩ := wr_inv h; simp

theorem fAt_len {l l' : List R} {a b c n : Nat} (h : fAt A l a b c n = ok l') : l'.length = l.length := by
  refine lenLoop (fun i x y e => ?_) h
  obtain ⟨_, _, e⟩ := bind_inv e
  obtain ⟨_, _, e⟩ := bind_inv e
  exact wr_len e

theorem g0At_len {l l' : List R} {a b c n : Nat} (h : g0At A l a b c n = ok l') : l'.length = l.length := by
  refine lenLoop (fun i x y e => ?_) h
  obtain ⟨_, _, e⟩ := bind_inv e
  obtain ⟨_, _, e⟩ := bind_inv e
  exact wr_len e

theorem gAt_len {l l' : List R} {s : List (BitVec w)} {a b o c n : Nat} (h : gAt A s l a b o c n = ok l') : l'.length = l.length := by
  refine lenLoop (fun i x y e => ?_) h
  obtain ⟨_, _, e⟩ := bind_inv e
  obtain ⟨_, _, e⟩ := bind_inv e
  obtain ⟨_, _, e⟩ := bind_inv e
  exact wr_len e

theorem grAt_len {l l' : List R} {s : List (BitVec w)} {a b o c n : Nat} (h : grAt A s l a b o c n = ok l') : l'.length = l.length := by
  unfold grAt at h
  obtain ⟨_, _, h⟩ := bind_inv h
  refine lenLoop (fun i x y e => ?_) h
  obtain ⟨_, _, e⟩ := bind_inv e
  obtain ⟨_, _, e⟩ := bind_inv e
  exact wr_len e

theorem terminalNode_len {t : NT} {l : List R} {s s' : List (BitVec w)} {a o n : Nat} (h : terminalNode A t l s a o n = ok s') : s'.length = s.length := by
  unfold terminalNode at h
  split at h
  · exact lenLoop (fun i x y e => wr_len e) h
  · refine lenLoop (fun i x y e => ?_) h
    obtain ⟨_, _, e⟩ := bind_inv e
    exact wr_len e
  · unfold repAt at h
    obtain ⟨_, _, h⟩ := bind_inv h
    exact lenLoop (fun i x y e => wr_len e) h
  · unfold spcAt at h
    obtain ⟨st, h1, h⟩ := bind_inv h
    have hst : st.s.length = s.length := by
      refine forN_pres (fun x : Spc R w => x.s.length = s.length) (fun i x y _ hx e => ?_) rfl h1
      unfold spcBody at e
      obtain ⟨_, _, e⟩ := bind_inv e
      obtain ⟨_, e1, e⟩ := bind_inv e
      have := wr_len e1
      simp only at e
      split at e <;> cases e <;> simp only <;> omega
    split at h
    · split at h
      · obtain ⟨_, _, h⟩ := bind_inv h
        rw [wr_len h, hst]
      · split at h
        · cases h
        · obtain ⟨_, _, h⟩ := bind_inv h
          rw [wr_len h, hst]
    · cases h; exact hst
  · cases h; rfl

theorem beforeLeft_len {t : NT} {l l' : List R} {a n h : Nat} (e : beforeLeft A t l a n h = ok l') : l'.length = l.length := by
  unfold beforeLeft at e
  split at e
  · exact fAt_len A e
  · exact fAt_len A e
  · cases e; rfl

theorem beforeRight_len {t : NT} {l l' : List R} {s : List (BitVec w)} {a o n h : Nat} (e : beforeRight A t l s a o n h = ok l') : l'.length = l.length := by
  unfold beforeRight at e
  split at e
  · exact gAt_len A e
  · exact g0At_len A e
  · exact grAt_len A e
  · cases e; rfl

theorem xoAt_len {s s' : List (BitVec w)} {a b n : Nat} (h : xoAt s a b n = ok s') : s'.length = s.length := by
  refine lenLoop (fun i x y e => ?_) h
  obtain ⟨_, _, e⟩ := bind_inv e
  obtain ⟨_, _, e⟩ := bind_inv e
  exact wr_len e

theorem xo0At_len {s s' : List (BitVec w)} {a b n : Nat} (h : xo0At s a b n = ok s') : s'.length = s.length := by
  refine lenLoop (fun i x y e => ?_) h
  obtain ⟨_, _, e⟩ := bind_inv e
  exact wr_len e

theorem afterRight_len {t : NT} {s s' : List (BitVec w)} {o h : Nat} (e : afterRight t s o h = ok s') : s'.length = s.length := by
  unfold afterRight at e
  split at e
  · exact xoAt_len e
  · exact xo0At_len e
  · exact xoAt_len e
  · cases e; rfl

theorem decodeRec_len {ty : List NT} : ∀ {k a o : Nat} {p q : List R × List (BitVec w) × Nat}, decodeRec A ty k a o p = ok q → q.1.length = p.1.length ∧ q.2.1.length = p.2.1.length
  | 0, a, o, (l, s, id), q, h => by
    unfold decodeRec at h
    obtain ⟨t, _, h⟩ := bind_inv h
    obtain ⟨s', h1, h⟩ := bind_inv h
    cases h
    exact ⟨rfl, terminalNode_len A h1⟩
  | k + 1, a, o, (l, s, id), q, h => by
    unfold decodeRec at h
    obtain ⟨t, _, h⟩ := bind_inv h
    split at h
    · obtain ⟨s', h1, h⟩ := bind_inv h
      cases h
      exact ⟨rfl, terminalNode_len A h1⟩
    · obtain ⟨l1, h1, h⟩ := bind_inv h
      obtain ⟨st, h2, h⟩ := bind_inv h
      obtain ⟨l2, h3, h⟩ := bind_inv h
      obtain ⟨st', h4, h⟩ := bind_inv h
      obtain ⟨s', h5, h⟩ := bind_inv h
      cases h
      have e1 := beforeLeft_len A h1
      have e2 := decodeRec_len h2
      have e3 := beforeRight_len A h3
      have e4 := decodeRec_len h4
      have e5 := afterRight_len h5
      simp only at e1 e2 e3 e4 e5 ⊢
      omega

end

/-! ## The object -/

/-- What every call keeps. -/
structure Ok (n : Nat) (d : Dec R w) : Prop where
  N : d.N = 2 ^ n
  frozen : d.frozen.length = 2 ^ n
  K : d.K = cnt d.frozen
  pats : PatsOk d.pats d.i0 d.i1
  lab : ∃ t, Lab n d.frozen t ∧ d.ty = types t ∧ d.lv = leaves t
  parsed : parseBits d.pats d.i0 d.i1 d.frozen = .ok (d.ty, d.lv)
  l : d.l.length = 2 * 2 ^ n
  s : d.s.length = 2 ^ n
  yN : d.yN.length = 2 ^ n

theorem mk?_sat (A : Api R w) {K N : Int} {frozen : List Bool} {pats : List Pat} {i0 i1 n : Nat} (hp : PatsOk pats i0 i1) (hK : 0 < K) (hN : N = ((2 ^ n : Nat) : Int))
    (hf : frozen.length = 2 ^ n) (hc : K = cnt frozen) :
    (Dec.mk? A K N frozen pats i0 i1).Sat fun d => Ok n d ∧ d.frozen = frozen ∧ d.pats = pats ∧ d.i0 = i0 ∧ d.i1 = i1 := by
  have hle : cnt frozen ≤ frozen.length := List.length_filter_le _ _
  have hpos : 0 < 2 ^ n := Nat.two_pow_pos n
  have hN1 : 0 < N := by rw [hN]; exact_mod_cast hpos
  have hN2 : N = frozen.length := by rw [hN, hf]
  have hNt : N.toNat = 2 ^ n := by rw [hN]; rfl
  have h0 : i0 < pats.length := by obtain ⟨p, h, _⟩ := hp.2.1; exact (List.getElem?_eq_some_iff.1 h).1
  have h1 : i1 < pats.length := by obtain ⟨p, h, _⟩ := hp.2.2; exact (List.getElem?_eq_some_iff.1 h).1
  have h01 : i0 ≠ i1 := by
    obtain ⟨_, ⟨p, h, e⟩, ⟨q, h', e'⟩⟩ := hp
    rintro rfl
    rw [h] at h'; cases h'
    rw [e] at e'; cases e'
  unfold Dec.mk?
  rw [if_neg (by omega), if_neg (by omega), if_neg (by omega), if_neg (by omega), if_neg (by omega), if_neg (by omega), if_neg h01]
  obtain ⟨p, ep, t, h2, h3⟩ := parseBits_sat hp hf
  rw [ep, bind_ok]
  rw [if_neg (by rw [hNt, isPow2_pow]; simp), if_neg (by omega), if_neg (by unfold cnt at hc; omega), sat_ok, hNt]
  subst h3
  exact ⟨⟨rfl, hf, by show K.toNat = cnt frozen; omega, hp, ⟨t, h2, rfl, rfl⟩, ep, by simp, by simp, by simp⟩, rfl, rfl, rfl, rfl⟩

theorem mk?_ok {A : Api R w} {K N : Int} {frozen : List Bool} {pats : List Pat} {i0 i1 : Nat} {d : Dec R w} (h : Dec.mk? A K N frozen pats i0 i1 = ok d) :
    0 < K ∧ ∃ n, N = ((2 ^ n : Nat) : Int) ∧ frozen.length = 2 ^ n ∧ K = cnt frozen := by
  unfold Dec.mk? at h
  by_cases h1 : K ≤ 0
  · rw [if_pos h1] at h; cases h
  rw [if_neg h1] at h
  by_cases h2 : N ≤ 0
  · rw [if_pos h2] at h; cases h
  rw [if_neg h2] at h
  by_cases h3 : K > N
  · rw [if_pos h3] at h; cases h
  rw [if_neg h3] at h
  split at h
  · cases h
  split at h
  · cases h
  split at h
  · cases h
  split at h
  · cases h
  obtain ⟨p, _, h⟩ := bind_inv h
  by_cases h4 : (!Reorderer.isPow2 N.toNat) = true
  · rw [if_pos h4] at h; cases h
  rw [if_neg h4] at h
  by_cases h5 : N ≠ frozen.length
  · rw [if_pos h5] at h; cases h
  rw [if_neg h5] at h
  by_cases h6 : K ≠ (frozen.filter (· = false)).length
  · rw [if_pos h6] at h; cases h
  obtain ⟨n, hn⟩ := Reorderer.isPow2_iff.1 (by simpa using h4)
  exact ⟨by omega, n, by omega, by omega, by simpa [cnt] using h6⟩

theorem setFrozen_sat {n : Nat} {d : Dec R w} (h : Ok n d) {fb : List Bool} (hl : fb.length = 2 ^ n) (hc : d.K = cnt fb) :
    (d.setFrozen fb).Sat fun d' => Ok n d' ∧ d'.frozen = fb ∧ d'.K = d.K ∧ d'.N = d.N ∧ d'.pats = d.pats := by
  have hf := h.frozen
  have hN := h.N
  have hK := h.K
  unfold Dec.setFrozen
  rw [if_neg (by omega), if_neg (by unfold cnt at hK; omega)]
  refine (copyTo_sat (by omega) (by omega)).bind fun fr ⟨f1, f2⟩ => ?_
  have e : fr = fb := by
    apply List.ext_getElem?
    intro i
    rw [f2 i]
    by_cases hi : i < fb.length
    · rw [if_pos (by omega)]; simp
    · rw [if_neg (by omega), List.getElem?_eq_none (by omega), List.getElem?_eq_none (by omega)]
  subst e
  obtain ⟨p, ep, t, h2, h3⟩ := parseBits_sat h.pats hl
  rw [ep, bind_ok]
  rw [sat_ok]
  subst h3
  exact ⟨⟨h.N, hl, hc, h.pats, ⟨t, h2, rfl, rfl⟩, ep, h.l, h.s, h.yN⟩, rfl, rfl, rfl, rfl⟩

/-- The loaded decoder. -/
theorem load_put {n : Nat} {d : Dec R w} (h : Ok n d) {y : List R} (hy : y.length = 2 ^ n) : copyTo y 0 d.N d.l 0 = ok (splice d.l 0 y) := by
  have hl := h.l
  have hN := h.N
  unfold copyTo
  have := forN_splice (n := d.N) (c := 0) (l := d.l) (vals := y) (body := fun i d => do let x ← rd y (0 + i); wr d (0 + i) x) (by omega) (by omega) (fun i l' x hx _ _ => by
    obtain ⟨g1, g2⟩ := List.getElem?_eq_some_iff.1 hx
    simp only [Nat.zero_add, rd_lt g1, g2, bind_ok])
  rw [this]

theorem run_eq (A : Api R w) {n : Nat} {d : Dec R w} (h : Ok n d) (hn : 6 ≤ n) {y : List R} (hy : y.length = 2 ^ n) {t : Bin (NT × Nat)} (ht : Lab n d.frozen t) (hty : d.ty = types t)
    {x : List (BitVec w)} (hx : dec A n t y = some x) : ∃ l', d.run A y = ok { d with l := l', s := x } ∧ l'.length = d.l.length := by
  have hl := h.l
  have hs := h.s
  unfold Dec.run
  rw [load_put h hy, bind_ok, h.N, Nat.log2_two_pow, if_neg (by unfold staticLevel; omega)]
  have hlen : (splice d.l 0 y).length = d.l.length := splice_length (by omega)
  have e : sl (splice d.l 0 y) 0 (2 ^ n) = y := sl_splice (by omega) hy
  obtain ⟨l', e1, e2, _⟩ := decodeRec_eq A (ty := d.ty) (a := 0) (o := 0) (id := 0) (l := splice d.l 0 y) (s := d.s) (post := []) ht.tree (by rw [hty]; simp)
    (by rw [hlen, hl, Nat.pow_succ]; omega) (by omega) (by rw [e]; exact hx)
  rw [e1, bind_ok]
  have hxl := dec_length A hy hx
  have : splice d.s 0 x = x := by unfold splice; rw [List.take_zero, List.nil_append, List.drop_eq_nil_of_le (by omega), List.append_nil]
  exact ⟨l', by rw [this], by rw [e2, hlen]⟩

theorem run_inv (A : Api R w) {n : Nat} {d d' : Dec R w} (h : Ok n d) {y : List R} (e : d.run A y = ok d') : Ok n d' := by
  unfold Dec.run at e
  obtain ⟨l, e1, e⟩ := bind_inv e
  split at e
  · cases e
  · obtain ⟨st, e2, e⟩ := bind_inv e
    cases e
    have h1 := Turbo.copyTo_len e1
    obtain ⟨h2, h3⟩ := decodeRec_len A e2
    simp only at h2 h3
    exact ⟨h.N, h.frozen, h.K, h.pats, h.lab, h.parsed, by rw [h2, h1, h.l], by rw [h3, h.s], h.yN⟩

theorem siho_inv (A : Api R w) {n : Nat} {d d' : Dec R w} (h : Ok n d) {y : List R} {v v' : List (BitVec w)} (e : d.siho A y v = ok (d', v')) : Ok n d' := by
  unfold Dec.siho at e
  obtain ⟨d1, e1, e⟩ := bind_inv e
  obtain ⟨_, _, e⟩ := bind_inv e
  cases e
  exact run_inv A h e1

theorem sihoCw_inv (A : Api R w) {n : Nat} {d d' : Dec R w} (h : Ok n d) {y : List R} {v v' : List (BitVec w)} (e : d.sihoCw A y v = ok (d', v')) : Ok n d' := by
  unfold Dec.sihoCw at e
  obtain ⟨d1, e1, e⟩ := bind_inv e
  obtain ⟨_, _, e⟩ := bind_inv e
  cases e
  exact run_inv A h e1

theorem harden_inv (A : Api R w) {n : Nat} {d d' : Dec R w} (h : Ok n d) {y : List (BitVec w)} (e : d.harden A y = ok d') : Ok n d' := by
  unfold Dec.harden at e
  obtain ⟨o, e1, e⟩ := bind_inv e
  cases e
  have h1 : o.length = d.yN.length := by
    refine lenLoop (fun i x y e => ?_) e1
    obtain ⟨_, _, e⟩ := bind_inv e
    exact wr_len e
  exact ⟨h.N, h.frozen, h.K, h.pats, h.lab, h.parsed, h.l, h.s, by rw [h1, h.yN]⟩

theorem Reach.ok {A : Api R w} {d : Dec R w} (h : Reach A d) : ∃ n, Ok n d := by
  induction h with
  | make hp h =>
    obtain ⟨h1, n, h2, h3, h4⟩ := mk?_ok h
    exact ⟨n, (PolarSC.Sat.of_ok (mk?_sat A hp h1 h2 h3 h4) h).1⟩
  | frozen _ h1 h2 h ih =>
    obtain ⟨n, ho⟩ := ih
    exact ⟨n, (PolarSC.Sat.of_ok (setFrozen_sat ho (by rw [h1, ho.N]) h2) h).1⟩
  | siho _ hy hv h ih => obtain ⟨n, ho⟩ := ih; exact ⟨n, siho_inv A ho h⟩
  | sihoCw _ hy hv h ih => obtain ⟨n, ho⟩ := ih; exact ⟨n, sihoCw_inv A ho h⟩
  | hiho _ hy hv h ih =>
    obtain ⟨n, ho⟩ := ih
    unfold Dec.hiho at h
    obtain ⟨d1, e1, h⟩ := bind_inv h
    exact ⟨n, siho_inv A (harden_inv A ho e1) h⟩
  | hihoCw _ hy hv h ih =>
    obtain ⟨n, ho⟩ := ih
    unfold Dec.hihoCw at h
    obtain ⟨d1, e1, h⟩ := bind_inv h
    exact ⟨n, sihoCw_inv A (harden_inv A ho e1) h⟩

theorem siho_eq (A : Api R w) {n : Nat} {d : Dec R w} (h : Ok n d) (hn : 6 ≤ n) {y : List R} (hy : y.length = 2 ^ n) {t : Bin (NT × Nat)} (ht : Lab n d.frozen t) (hty : d.ty = types t)
    (hlv : d.lv = leaves t) {x : List (BitVec w)} (hx : dec A n t y = some x) {v : List (BitVec w)} (hv : v.length = d.K) :
    ∃ d', d.siho A y v = ok (d', unplace d.frozen x) ∧ d'.frozen = d.frozen := by
  obtain ⟨l', e, _⟩ := run_eq A h hn hy ht hty hx
  unfold Dec.siho
  have hK := h.K
  have hf := h.frozen
  rw [e, bind_ok]
  simp only
  rw [hlv, extract_eq ht.leaves.2 ht.leaves.1 (by rw [dec_length A hy hx, hf]) (by omega), bind_ok]
  exact ⟨_, rfl, rfl⟩

theorem sihoCw_eq (A : Api R w) {n : Nat} {d : Dec R w} (h : Ok n d) (hn : 6 ≤ n) {y : List R} (hy : y.length = 2 ^ n) {t : Bin (NT × Nat)} (ht : Lab n d.frozen t) (hty : d.ty = types t)
    {x : List (BitVec w)} (hx : dec A n t y = some x) {v : List (BitVec w)} (hv : v.length = d.N) :
    ∃ d', d.sihoCw A y v = ok (d', x) ∧ d'.frozen = d.frozen := by
  obtain ⟨l', e, _⟩ := run_eq A h hn hy ht hty hx
  unfold Dec.sihoCw
  have hN := h.N
  have hxl := dec_length A hy hx
  rw [e, bind_ok]
  simp only
  rw [copyTo_put (by omega) (by omega), bind_ok]
  have e2 : put v 0 (sl x 0 d.N) = x := by
    have : sl x 0 d.N = x := by unfold sl; rw [List.drop_zero, List.take_of_length_le (by omega)]
    rw [this, put_all (by omega)]
  rw [e2]
  exact ⟨_, rfl, rfl⟩

theorem harden_eq (A : Api R w) {n : Nat} {d : Dec R w} (h : Ok n d) {y : List (BitVec w)} (hy : y.length = 2 ^ n) :
    d.harden A y = ok { d with yN := PolarSC.hard A.fns y } := by
  have hN := h.N
  have hyn := h.yN
  unfold Dec.harden
  have := forN_splice (n := d.N) (c := 0) (l := d.yN) (vals := PolarSC.hard A.fns y) (body := fun i o => do let x ← rd y i; wr o i (if x ≠ 0 then A.fns.mone else A.fns.one))
    (by simp [PolarSC.hard]; omega) (by omega) (fun i l' x hx _ _ => by
      unfold PolarSC.hard at hx
      rw [List.getElem?_map, Option.map_eq_some_iff] at hx
      obtain ⟨z, hz, rfl⟩ := hx
      obtain ⟨g1, g2⟩ := List.getElem?_eq_some_iff.1 hz
      simp only [Nat.zero_add, rd_lt g1, g2, bind_ok])
  rw [this, bind_ok]
  have hl : (PolarSC.hard A.fns y).length = 2 ^ n := by simp [PolarSC.hard, hy]
  have e : splice d.yN 0 (PolarSC.hard A.fns y) = PolarSC.hard A.fns y := by
    unfold splice; rw [List.take_zero, List.nil_append, List.drop_eq_nil_of_le (by omega), List.append_nil]
  rw [e]

theorem Ok.hard {n : Nat} {d : Dec R w} (h : Ok n d) {y : List R} (hy : y.length = 2 ^ n) : Ok n { d with yN := y } :=
  ⟨h.N, h.frozen, h.K, h.pats, h.lab, h.parsed, h.l, h.s, hy⟩

end Verif.PolarFast
