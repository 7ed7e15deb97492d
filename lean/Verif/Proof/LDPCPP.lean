import Verif.Proof.LDPCBF

namespace Verif.LDPCBF
open Exec Verif.Sparse Verif.Float Verif.LDPCBP

variable {S : Source} {w : Nat}

/-- What the calls keep. -/
structure Hard.WF (A : Conns) (H : Mat) (info : List Nat) (d : Hard S w) : Prop where
  hH : d.H = H
  hN : d.N = A.rows
  hi : d.info = info
  hK : info.length = d.K
  np : d.nProba = H.rowsMax + 2
  ite : 0 < d.nIte
  vn : d.vn.length = A.rows
  cn : d.cn.length = A.cols

theorem Hard.wf_mk {A : Conns} {H : Mat} (h : Represents H A) {info : List Nat} {char8 enable : Bool} {K N nIte depth : Int} {nProba : Nat}
    {s : S.σ} {d : Hard S w} (e : Hard.mk? S w char8 K N nIte H info nProba enable depth s = ok d) : d.WF A H info := by
  unfold Hard.mk? at e
  by_cases h1 : K ≤ 0; · rw [if_pos h1] at e; cases e
  by_cases h2 : N ≤ 0; · rw [if_neg h1, if_pos h2] at e; cases e
  by_cases h3 : K > N; · rw [if_neg h1, if_neg h2, if_pos h3] at e; cases e
  by_cases h4 : (!checkLUT info K.toNat) = true; · rw [if_neg h1, if_neg h2, if_neg h3, if_pos h4] at e; cases e
  by_cases h5 : nIte ≤ 0; · rw [if_neg h1, if_neg h2, if_neg h3, if_neg h4, if_pos h5] at e; cases e
  by_cases h5' : depth ≤ 0; · rw [if_neg h1, if_neg h2, if_neg h3, if_neg h4, if_neg h5, if_pos h5'] at e; cases e
  by_cases h6 : N ≠ H.nRows; · rw [if_neg h1, if_neg h2, if_neg h3, if_neg h4, if_neg h5, if_neg h5', if_pos h6] at e; cases e
  by_cases h7 : char8 = true
  · rw [if_neg h1, if_neg h2, if_neg h3, if_neg h4, if_neg h5, if_neg h5', if_neg h6, if_pos h7] at e; cases e
  by_cases h8 : nProba ≠ H.rowsMax + 2
  · rw [if_neg h1, if_neg h2, if_neg h3, if_neg h4, if_neg h5, if_neg h5', if_neg h6, if_neg h7, if_pos h8] at e; cases e
  rw [if_neg h1, if_neg h2, if_neg h3, if_neg h4, if_neg h5, if_neg h5', if_neg h6, if_neg h7, if_neg h8] at e
  cases e
  have hr := h.nRows
  have hc := h.nCols
  have hl : info.length = K.toNat := by
    unfold checkLUT at h4
    simp only [Bool.not_eq_true', Bool.not_eq_false, Bool.and_eq_true, Bool.or_eq_true, decide_eq_true_eq] at h4
    rcases h4.1 with h | h
    · omega
    · exact h
  exact ⟨rfl, show N.toNat = A.rows by omega, rfl, hl, by simpa using h8, show 0 < nIte.toNat by omega, by simp; omega, by simp; omega⟩

/-- The value of a bit. -/
def bv (w : Nat) (b : Bool) : BitVec w := if b then 1#w else 0#w

theorem bits_eq (w n : Nat) (x : Nat → Bool) : bits w n x = frameOf n fun v => bv w (x v) := rfl

theorem bv_xor (a b : Bool) : bv w a ^^^ bv w b = bv w (a ^^ b) := by
  cases a <;> cases b <;> simp [bv]

theorem bv_toInt (hw : 2 ≤ w) (b : Bool) : (bv w b).toInt = if b then 1 else 0 := by
  cases b
  · simp [bv]
  · simp only [bv, if_true]
    rw [BitVec.toInt_eq_toNat_of_lt]
    · rw [BitVec.toNat_ofNat, Nat.mod_eq_of_lt (Nat.one_lt_two_pow (by omega))]
      rfl
    · have : 2 ^ 1 < 2 ^ w := Nat.pow_lt_pow_right (by omega) (by omega)
      rw [BitVec.toNat_ofNat, Nat.mod_eq_of_lt (Nat.one_lt_two_pow (by omega))]
      omega

theorem bv_ne (hw : 2 ≤ w) (b : Bool) : (bv w b != 0#w) = b := by
  cases b
  · simp [bv]
  · have : (bv w true).toInt = 1 := bv_toInt hw true
    have hne : bv w true ≠ 0#w := fun e => by rw [e] at this; simp at this
    simp [hne]

theorem foldl_xor (x : Nat → Bool) (l : List Nat) : l.foldl (fun b v => b ^^^ bv w (x v)) 0#w = bv w (parity x l) := by
  induction l using List.reverseRecOn with
  | nil => rfl
  | append_singleton l a ih =>
    rw [List.foldl_append, ih, parity_append, ← bv_xor]
    rfl

/-- The failing checks. -/
def failing (A : Conns) (x : Nat → Bool) (c : Nat) : Bool := !decide (Satisfied A x c)

section
variable {A : Conns} {H : Mat} {info : List Nat}

theorem cn_eq (h : Represents H A) {d : Hard S w} (hH : d.H = H) (x : Nat → Bool) {cn : List (BitVec w)} (hc : cn.length = A.cols) :
    d.cnProcess (bits w A.rows x) cn = ok (bits w A.cols (failing A x)) := by
  unfold Hard.cnProcess
  rw [hH, h.nCols]
  refine Verif.Extractor.store_eq (fun c cn hc => ?_) hc.symm
  rw [rd_col h hc, bind_ok, bits_eq, fold_rd (g := fun b p => b ^^^ bv w (x p)) rfl (fun p hp s => by
    rw [rd_frame _ (vars_lt h hp)]; rfl), bind_ok, foldl_xor, parity_vars h]
  rfl

theorem check_eq (hw : 2 ≤ w) (n : Nat) (g : Nat → Bool) : checkNodes (bits w n g) = decide (∀ c, c < n → g c = false) := by
  unfold checkNodes
  have : (bits w n g).foldl (fun a b => a || b != 0#w) false = decide (∃ c, c < n ∧ g c = true) := by
    induction n with
    | zero => simp [bits]
    | succ n ih =>
      have e : bits w (n + 1) g = bits w n g ++ [bv w (g n)] := by
        unfold bits
        rw [List.range_succ, List.map_append]
        rfl
      rw [e, List.foldl_append, ih]
      simp only [List.foldl_cons, List.foldl_nil, bv_ne hw]
      rw [Bool.eq_iff_iff]
      simp only [Bool.or_eq_true, decide_eq_true_eq]
      constructor
      · rintro (⟨c, hc, hg⟩ | hg)
        · exact ⟨c, by omega, hg⟩
        · exact ⟨n, by omega, hg⟩
      · rintro ⟨c, hc, hg⟩
        by_cases hcn : c = n
        · subst hcn; exact Or.inr hg
        · exact Or.inl ⟨c, by omega, hg⟩
  rw [this, ← decide_not]
  congr 1
  simp

theorem check_code (hw : 2 ≤ w) (x : Nat → Bool) : checkNodes (bits w A.cols (failing A x)) = decide (Codeword A x) := by
  rw [check_eq hw]
  congr 1
  unfold failing Codeword
  simp

theorem count_fold (h : Represents H A) (x : Nat → Bool) (v : Nat) (e : Int) :
    (rowOf H v).foldl (fun e c => e + if failing A x c then 1 else 0) e =
      e + ((Finset.range A.cols).filter fun c => (v, c) ∈ A.set ∧ ¬ Satisfied A x c).card := by
  have h1 : ∀ (l : List Nat) (e : Int), l.foldl (fun e c => e + if failing A x c then 1 else 0) e = e + (l.countP (failing A x) : Nat) := by
    intro l
    induction l with
    | nil => intro e; simp
    | cons a l ih =>
      intro e
      rw [List.foldl_cons, ih, List.countP_cons]
      cases failing A x a <;> simp <;> omega
  rw [h1]
  congr 2
  rw [List.countP_eq_length_filter, ← List.toFinset_card_of_nodup ((nodup_rowOf h v).filter _)]
  congr 1
  ext c
  rw [List.mem_toFinset, List.mem_filter, Finset.mem_filter, Finset.mem_range, mem_rowOf h]
  unfold failing
  constructor
  · rintro ⟨a, b⟩
    exact ⟨(h.range _ a).2, a, by simpa using b⟩
  · rintro ⟨_, a, b⟩
    exact ⟨a, by simpa using b⟩

theorem count_le (h : Represents H A) (y x : Nat → Bool) {v : Nat} (hv : v < A.rows) : count A y x v ≤ H.rowsMax + 1 := by
  have h1 : ((Finset.range A.cols).filter fun c => (v, c) ∈ A.set ∧ ¬ Satisfied A x c).card ≤ A.rowDeg v := by
    refine Finset.card_le_card_of_injOn (fun c => (v, c)) ?_ ?_
    · intro c hc
      simp only [Finset.coe_filter, Set.mem_setOf_eq, Finset.mem_coe, Finset.mem_filter] at hc ⊢
      exact ⟨hc.2.1, trivial⟩
    · intro a _ b _ hab
      exact (Prod.mk.inj hab).2
  have h2 : A.rowDeg v ≤ H.rowsMax := by
    rw [h.rowsMax]
    exact Finset.le_sup (f := A.rowDeg) (Finset.mem_range.2 hv)
  unfold count
  split_ifs <;> omega

theorem vn_eq (hw : 2 ≤ w) (h : Represents H A) {d : Hard S w} (hH : d.H = H) (hn : d.nProba = H.rowsMax + 2) (y x : Nat → Bool) (s : S.σ) :
    d.vnProcess (bits w A.rows y) (bits w A.cols (failing A x)) (bits w A.rows x) s =
      ok (bits w A.rows (flipAll A y (x, s)).1, (flipAll A y (x, s)).2) := by
  unfold Hard.vnProcess
  rw [hH, h.nRows]
  obtain ⟨r, er, h1, h2⟩ := forN_inv (n := A.rows) (s := (bits w A.rows x, s)) (f := fun v (s : List (BitVec w) × S.σ) => do
    let row ← rd H.r2c v
    let x' ← rd s.1 v
    let y' ← rd (bits w A.rows y) v
    let e ← forN row.length (fun c e => do
      let p ← rd row c
      let b ← rd (bits w A.cols (failing A x)) p
      ok (e + b.toInt)) (x' ^^^ y').toInt
    if 0 ≤ e ∧ e < d.nProba then do
      let r := S.draw s.2 e.toNat
      let vn ← wr s.1 v (x' ^^^ (if r.1 then 1#w else 0#w))
      ok (vn, r.2)
    else ub)
    (fun k r => r.1 = (bits w A.rows fun v => if v < k then x v ^^ (draws S (count A y x) s k).1 v else x v) ∧
      r.2 = (draws S (count A y x) s k).2) ⟨by simp [bits], rfl⟩ (by
      rintro k ⟨vn, s'⟩ hk ⟨h1, h2⟩
      dsimp only at h1 h2 ⊢
      have hx : rd vn k = ok (bv w (x k)) := by
        rw [h1, bits_eq, rd_frame _ hk, if_neg (by omega)]
      rw [rd_row h hk, bind_ok, hx, bind_ok, bits_eq, rd_frame _ hk, bind_ok, bv_xor, bits_eq,
        fold_rd (g := fun (e : Int) c => e + if failing A x c then 1 else 0) rfl (fun c hc e => by
          rw [rd_frame _ (row_lt h hc), bind_ok, bv_toInt hw]), bind_ok, count_fold h, bv_toInt hw]
      have e : (if (x k ^^ y k) = true then (1 : Int) else 0) +
          ((Finset.range A.cols).filter fun c => (k, c) ∈ A.set ∧ ¬ Satisfied A x c).card = (count A y x k : Nat) := by
        unfold count
        cases x k <;> cases y k <;> simp
      rw [e]
      have hle := count_le h y x hk
      rw [if_pos (by omega), Int.toNat_natCast, h2]
      have hl : vn.length = A.rows := by rw [h1]; simp [bits]
      rw [wr_lt (by omega), bind_ok, sat_ok]
      refine ⟨?_, rfl⟩
      rw [bits_eq]
      apply eq_mapRange (by simpa using hl)
      intro i hi
      have hi1 : (vn.set k (bv w (x k) ^^^ bv w (S.draw (draws S (count A y x) s k).2 (count A y x k)).1))[i]? =
          some (bv w (if i < k + 1 then x i ^^ (draws S (count A y x) s (k + 1)).1 i else x i)) := by
        rw [List.getElem?_set]
        by_cases hik : k = i
        · have e1 : (if i < k + 1 then x i ^^ (draws S (count A y x) s (k + 1)).1 i else x i) =
              (x k ^^ (S.draw (draws S (count A y x) s k).2 (count A y x k)).1) := by
            subst hik
            rw [if_pos (by omega)]
            simp [draws]
          rw [if_pos hik, if_pos (by omega), e1, bv_xor]
        · have e1 : (if i < k + 1 then x i ^^ (draws S (count A y x) s (k + 1)).1 i else x i) =
              if i < k then x i ^^ (draws S (count A y x) s k).1 i else x i := by
            by_cases hlt : i < k
            · rw [if_pos hlt, if_pos (by omega)]
              simp only [draws]
              rw [if_neg (by omega)]
            · rw [if_neg hlt, if_neg (by omega)]
          rw [if_neg hik, h1, bits_eq, frameOf, getElem?_mapRange, if_pos hi, e1]
      exact hi1)
  have e1 : r = (bits w A.rows (flipAll A y (x, s)).1, (flipAll A y (x, s)).2) := by
    refine Prod.ext ?_ h2
    rw [h1]
    unfold bits
    apply List.map_congr_left
    intro v hv
    dsimp only
    have e1 : (if v < A.rows then x v ^^ (draws S (count A y x) s A.rows).1 v else x v) = (flipAll A y (x, s)).1 v := by
      rw [if_pos (List.mem_range.1 hv)]
      rfl
    exact congrArg (bv w) e1
  rw [← e1]
  exact er

theorem turn_eq (hw : 2 ≤ w) (h : Represents H A) {d : Hard S w} (wf : d.WF A H info) (y x : Nat → Bool) (cur : Nat) (rng : S.σ)
    {cn : List (BitVec w)} (synd : Bool) (hc : cn.length = A.cols) :
    d.turn (bits w A.rows y) ⟨bits w A.rows x, cn, rng, synd, cur, false⟩ =
      ok (if d.enable = true ∧ Codeword A x ∧ d.depth ≤ cur + 1 then ⟨bits w A.rows x, bits w A.cols (failing A x), rng, true, cur + 1, true⟩
        else ⟨bits w A.rows (flipAll A y (x, rng)).1, bits w A.cols (failing A x), (flipAll A y (x, rng)).2,
          if d.enable then decide (Codeword A x) else synd, if d.enable = true ∧ Codeword A x then cur + 1 else 0, false⟩) := by
  unfold Hard.turn
  rw [if_neg (by simp), cn_eq h wf.hH x hc, bind_ok]
  dsimp only
  rw [check_code hw, vn_eq hw h wf.hH wf.np]
  by_cases hen : d.enable = true
  · rw [hen]
    by_cases hcw : Codeword A x
    · by_cases hd : d.depth ≤ cur + 1 <;> simp [hcw, hd]
    · simp [hcw]
  · have hen' : d.enable = false := by simpa using hen
    rw [hen']
    simp

/-- What the loop gives from the state `q` with `cur` consecutive codewords. -/
theorem loop_eq (hw : 2 ≤ w) (h : Represents H A) {d : Hard S w} (wf : d.WF A H info) (y : Nat → Bool) : ∀ (n cur : Nat) (x : Nat → Bool) (rng : S.σ)
    (cn : List (BitVec w)) (synd : Bool), cn.length = A.cols → ∃ s : Loop S w,
      forN (n + 1) (fun _ s => d.turn (bits w A.rows y) s) ⟨bits w A.rows x, cn, rng, synd, cur, false⟩ = ok s ∧
      s.vn = bits w A.rows (ppRun A d.enable d.depth y n cur (x, rng)).1.1 ∧ s.rng = (ppRun A d.enable d.depth y n cur (x, rng)).1.2 ∧
      s.cn.length = A.cols ∧
      (if !d.enable || !s.synd then checkNodes s.cn else s.synd) = (ppRun A d.enable d.depth y n cur (x, rng)).2 := by
  have hstop : ∀ (n : Nat) (s : Loop S w), s.stop = true → forN n (fun _ s => d.turn (bits w A.rows y) s) s = ok s := by
    intro n s hs
    induction n with
    | zero => rfl
    | succ n ih =>
      rw [forN_succ, ih, bind_ok]
      unfold Hard.turn
      rw [if_pos hs]
  intro n
  induction n with
  | zero =>
    intro cur x rng cn synd hc
    rw [forN_succ, forN_zero, bind_ok, turn_eq hw h wf y x cur rng synd hc, ppRun]
    by_cases hcd : d.enable = true ∧ Codeword A x ∧ d.depth ≤ cur + 1
    · rw [if_pos hcd, if_pos hcd]
      exact ⟨_, rfl, rfl, rfl, by simp [bits], by simp [hcd.1]⟩
    · rw [if_neg hcd, if_neg hcd]
      refine ⟨_, rfl, rfl, rfl, by simp [bits], ?_⟩
      dsimp only
      rw [check_code hw]
      cases d.enable <;> simp
  | succ n ih =>
    intro cur x rng cn synd hc
    rw [forN_succ', turn_eq hw h wf y x cur rng synd hc, bind_ok, ppRun]
    by_cases hcd : d.enable = true ∧ Codeword A x ∧ d.depth ≤ cur + 1
    · rw [if_pos hcd, if_pos hcd]
      exact ⟨_, hstop (n + 1) _ rfl, rfl, rfl, by simp [bits], by simp [hcd.1]⟩
    · rw [if_neg hcd, if_neg hcd]
      exact ih _ _ _ _ _ (by simp [bits])

theorem hdecode_eq (hw : 2 ≤ w) (h : Represents H A) {d : Hard S w} (wf : d.WF A H info) (y : Nat → Bool) (hv : d.vn = bits w A.rows y) :
    (d.decode (bits w A.rows y)).Sat fun r => r.1.WF A H info ∧ r.1.K = d.K ∧
      r.1.vn = bits w A.rows (ppRun A d.enable d.depth y (d.nIte - 1) 0 (y, d.rng)).1.1 ∧
      r.1.rng = (ppRun A d.enable d.depth y (d.nIte - 1) 0 (y, d.rng)).1.2 ∧
      r.2 = (ppRun A d.enable d.depth y (d.nIte - 1) 0 (y, d.rng)).2 := by
  unfold Hard.decode
  have hi := wf.ite
  obtain ⟨s, es, h1, h2, h3, h4⟩ := loop_eq hw h wf y (d.nIte - 1) 0 y d.rng d.cn false wf.cn
  have e : d.nIte - 1 + 1 = d.nIte := by omega
  rw [e] at es
  rw [hv, es, bind_ok, sat_ok]
  exact ⟨⟨wf.hH, wf.hN, wf.hi, wf.hK, wf.np, wf.ite, by rw [h1]; simp [bits], h3⟩, rfl, h1, h2, h4⟩

theorem copy_all {α : Type} {a b : List α} {n : Nat} (ha : a.length = n) (hb : b.length = n) : copyTo a 0 n b 0 = ok a := by
  obtain ⟨o, e, h1, h2⟩ := copyTo_sat (src := a) (so := 0) (n := n) (dst := b) (d := 0) (by omega) (by omega)
  rw [e]
  congr 1
  apply List.ext_getElem?
  intro i
  rw [h2]
  by_cases hi : i < n
  · rw [if_pos (by omega)]; simp
  · rw [if_neg (by omega), List.getElem?_eq_none (by omega), List.getElem?_eq_none (by omega)]

theorem hiho_eq (hw : 2 ≤ w) (h : Represents H A) (hinfo : ∀ p ∈ info, p < A.rows) {d : Hard S w} (wf : d.WF A H info) (y : Nat → Bool)
    {V : List (BitVec w)} (hV : V.length = d.K) :
    (d.hiho (bits w A.rows y) V).Sat fun r => r.1.WF A H info ∧
      r.1.rng = (ppRun A d.enable d.depth y (d.nIte - 1) 0 (y, d.rng)).1.2 ∧
      r.2 = resOf (ppRun A d.enable d.depth y (d.nIte - 1) 0 (y, d.rng)).2
        (info.map fun p => if (ppRun A d.enable d.depth y (d.nIte - 1) 0 (y, d.rng)).1.1 p then 1#w else 0#w) := by
  unfold Hard.hiho
  rw [copy_all (n := d.N) (by simp [bits, wf.hN]) (by rw [wf.vn, wf.hN]), bind_ok]
  have wf' : Hard.WF A H info { d with vn := bits w A.rows y } := ⟨wf.hH, wf.hN, wf.hi, wf.hK, wf.np, wf.ite, by simp [bits], wf.cn⟩
  refine Sat.bind (hdecode_eq hw h wf' y rfl) ?_
  rintro ⟨d', b⟩ ⟨h1, -, h3, h4, h5⟩
  dsimp only at h1 h3 h4 h5 ⊢
  rw [h3, h5, wf.hi, Verif.Extractor.store_eq (g := fun i => bv w ((ppRun A d.enable d.depth y (d.nIte - 1) 0 (y, d.rng)).1.1 (info.getD i 0)))
    (fun i V hi => by
      have hi' : i < info.length := by rw [wf.hK]; exact hi
      have hp := hinfo _ (List.getElem_mem hi')
      rw [rd_lt hi', bind_ok, bits_eq, rd_frame _ hp, bind_ok, getD_lt _ hi']) hV.symm, bind_ok, sat_ok]
  refine ⟨h1, h4, congrArg (resOf _) (Eq.symm ?_)⟩
  apply eq_mapRange (by rw [List.length_map, wf.hK])
  intro i hi
  have hi' : i < info.length := by rw [wf.hK]; exact hi
  rw [List.getElem?_map, List.getElem?_eq_getElem hi', getD_lt _ hi']
  rfl

theorem hihoCw_eq (hw : 2 ≤ w) (h : Represents H A) {d : Hard S w} (wf : d.WF A H info) (y : Nat → Bool)
    {V : List (BitVec w)} (hV : V.length = d.N) :
    (d.hihoCw (bits w A.rows y) V).Sat fun r => r.1.WF A H info ∧
      r.1.rng = (ppRun A d.enable d.depth y (d.nIte - 1) 0 (y, d.rng)).1.2 ∧
      r.2 = resOf (ppRun A d.enable d.depth y (d.nIte - 1) 0 (y, d.rng)).2
        (bits w A.rows (ppRun A d.enable d.depth y (d.nIte - 1) 0 (y, d.rng)).1.1) := by
  unfold Hard.hihoCw
  rw [copy_all (n := d.N) (by simp [bits, wf.hN]) (by rw [wf.vn, wf.hN]), bind_ok]
  have wf' : Hard.WF A H info { d with vn := bits w A.rows y } := ⟨wf.hH, wf.hN, wf.hi, wf.hK, wf.np, wf.ite, by simp [bits], wf.cn⟩
  refine Sat.bind (hdecode_eq hw h wf' y rfl) ?_
  rintro ⟨d', b⟩ ⟨h1, -, h3, h4, h5⟩
  dsimp only at h1 h3 h4 h5 ⊢
  rw [copy_all (n := d.N) (by rw [h1.vn, wf.hN]) hV, bind_ok, sat_ok]
  exact ⟨h1, h4, by rw [h3, h5]⟩

/-! ## The specification -/

theorem draws_cong {e e' : Nat → Nat} (s : S.σ) {n : Nat} (he : ∀ v, v < n → e' v = e v) : draws S e' s n = draws S e s n := by
  induction n with
  | zero => rfl
  | succ n ih => simp only [draws]; rw [ih fun v hv => he v (by omega), he n (by omega)]

theorem count_sym (h : Represents H A) {z : Nat → Bool} (hz : Codeword A z) {y x y' x' : Nat → Bool} (hy : ∀ v, v < A.rows → y' v = (y v ^^ z v))
    (hx : ∀ v, v < A.rows → x' v = (x v ^^ z v)) {v : Nat} (hv : v < A.rows) : count A y' x' v = count A y x v := by
  unfold count
  congr 1
  · rw [hx v hv, hy v hv]
    cases x v <;> cases y v <;> cases z v <;> rfl
  · congr 1
    apply Finset.filter_congr
    intro c hc
    rw [satisfied_cong hx c, satisfied_xor h hz (Finset.mem_range.1 hc)]

theorem ppRun_sym (h : Represents H A) {z : Nat → Bool} (hz : Codeword A z) {enable : Bool} {depth : Nat} {y y' : Nat → Bool}
    (hy : ∀ v, v < A.rows → y' v = (y v ^^ z v)) (n : Nat) : ∀ (cur : Nat) (x x' : Nat → Bool) (s : S.σ), (∀ v, v < A.rows → x' v = (x v ^^ z v)) →
      (∀ v, v < A.rows → (ppRun A enable depth y' n cur (x', s)).1.1 v = ((ppRun A enable depth y n cur (x, s)).1.1 v ^^ z v)) ∧
      (ppRun A enable depth y' n cur (x', s)).1.2 = (ppRun A enable depth y n cur (x, s)).1.2 ∧
      (ppRun A enable depth y' n cur (x', s)).2 = (ppRun A enable depth y n cur (x, s)).2 := by
  have hstep : ∀ (x x' : Nat → Bool) (s : S.σ), (∀ v, v < A.rows → x' v = (x v ^^ z v)) →
      (∀ v, v < A.rows → (flipAll A y' (x', s)).1 v = ((flipAll A y (x, s)).1 v ^^ z v)) ∧
      (flipAll A y' (x', s)).2 = (flipAll A y (x, s)).2 := by
    intro x x' s hx
    unfold flipAll
    dsimp only
    rw [draws_cong s fun v hv => count_sym h hz hy hx hv]
    refine ⟨fun v hv => ?_, rfl⟩
    rw [hx v hv]
    cases x v <;> cases z v <;> simp
  induction n with
  | zero =>
    intro cur x x' s hx
    have hcw : Codeword A x' ↔ Codeword A x := (codeword_cong hx).trans (codeword_xor h hz)
    obtain ⟨h1, h2⟩ := hstep x x' s hx
    rw [ppRun, ppRun]
    dsimp only
    simp only [hcw]
    by_cases hc : enable = true ∧ Codeword A x ∧ depth ≤ cur + 1
    · rw [if_pos hc, if_pos hc]; exact ⟨hx, rfl, rfl⟩
    · rw [if_neg hc, if_neg hc]; exact ⟨h1, h2, rfl⟩
  | succ n ih =>
    intro cur x x' s hx
    have hcw : Codeword A x' ↔ Codeword A x := (codeword_cong hx).trans (codeword_xor h hz)
    obtain ⟨h1, h2⟩ := hstep x x' s hx
    rw [ppRun, ppRun]
    dsimp only
    simp only [hcw]
    by_cases hc : enable = true ∧ Codeword A x ∧ depth ≤ cur + 1
    · rw [if_pos hc, if_pos hc]; exact ⟨hx, rfl, rfl⟩
    · rw [if_neg hc, if_neg hc]
      have e : flipAll A y' (x', s) = ((flipAll A y' (x', s)).1, (flipAll A y (x, s)).2) := Prod.ext rfl h2
      rw [e]
      exact ih _ _ _ _ h1

theorem ppRun_sound {y : Nat → Bool} (n : Nat) : ∀ (cur : Nat) (q : (Nat → Bool) × S.σ), (ppRun A true 1 y n cur q).2 = true →
    Codeword A (ppRun A true 1 y n cur q).1.1 := by
  induction n with
  | zero =>
    intro cur q hq
    rw [ppRun] at hq ⊢
    by_cases hc : true = true ∧ Codeword A q.1 ∧ 1 ≤ cur + 1
    · rw [if_pos hc]; exact hc.2.1
    · rw [if_neg hc] at hq
      exact absurd ⟨rfl, by simpa using hq, by omega⟩ hc
  | succ n ih =>
    intro cur q hq
    rw [ppRun] at hq ⊢
    by_cases hc : true = true ∧ Codeword A q.1 ∧ 1 ≤ cur + 1
    · rw [if_pos hc]; exact hc.2.1
    · rw [if_neg hc] at hq ⊢
      exact ih _ _ hq

theorem draws_quiet (hq : ∀ s, (S.draw s 0).1 = false) {e : Nat → Nat} (s : S.σ) {n : Nat} (he : ∀ v, v < n → e v = 0) (v : Nat) :
    (draws S e s n).1 v = false := by
  induction n with
  | zero => rfl
  | succ n ih =>
    simp only [draws]
    by_cases hv : v = n
    · rw [if_pos hv, he n (by omega), hq]
    · rw [if_neg hv, ih fun u hu => he u (by omega)]

/-- A codeword that is received is kept when the draws of energy zero never flip. -/
theorem ppRun_quiet (hq : ∀ s, (S.draw s 0).1 = false) {enable : Bool} {depth : Nat} {y : Nat → Bool} (hy : Codeword A y) (h : Represents H A) (n : Nat) :
    ∀ (cur : Nat) (s : S.σ), (ppRun A enable depth y n cur (y, s)).1.1 = y ∧ (ppRun A enable depth y n cur (y, s)).2 = true := by
  have hstep : ∀ s : S.σ, (flipAll A y (y, s)).1 = y := by
    intro s
    funext v
    unfold flipAll
    dsimp only
    rw [draws_quiet hq s (fun u hu => ?_) v]
    · simp
    · unfold count
      rw [if_pos rfl]
      have : ((Finset.range A.cols).filter fun c => (u, c) ∈ A.set ∧ ¬ Satisfied A y c) = ∅ := by
        apply Finset.filter_false_of_mem
        intro c hc hh
        exact hh.2 (hy c (Finset.mem_range.1 hc))
      rw [this]
      rfl
  induction n with
  | zero =>
    intro cur s
    rw [ppRun]
    dsimp only
    split_ifs
    · exact ⟨rfl, rfl⟩
    · exact ⟨hstep s, by simpa using hy⟩
  | succ n ih =>
    intro cur s
    rw [ppRun]
    dsimp only
    by_cases hc : enable = true ∧ Codeword A y ∧ depth ≤ cur + 1
    · rw [if_pos hc]; exact ⟨rfl, rfl⟩
    · rw [if_neg hc]
      have e : flipAll A y (y, s) = (y, (flipAll A y (y, s)).2) := Prod.ext (hstep s) rfl
      rw [e]
      exact ih _ _

theorem ppRun_first {y : Nat → Bool} (hy : Codeword A y) (n : Nat) (s : S.σ) : ppRun A true 1 y n 0 (y, s) = ((y, s), true) := by
  rw [ppRun.eq_def]
  dsimp only
  rw [if_pos ⟨rfl, hy, by omega⟩]
end

end Verif.LDPCBF
