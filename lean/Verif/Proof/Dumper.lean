import Verif.Spec.Dumper

/-!
# Lemmas on the recording of frames
-/

namespace Verif.Dumper
open Exec User

theorem add_sat {D : Dumper} {nErr f : Nat} {mem : Nat → List Nat} (hf : (Op.add nErr f mem).Fits D.data)
    (hs : ∀ d ∈ D.data, d.size * d.sizeof < 2 ^ 32) (hB : D.buffer.length = D.data.length) :
    ∃ B, D.add nErr f mem = ok { D with buffer := B } ∧ B.length = D.data.length ∧
      ∀ i d, D.data[i]? = some d → B[i]? = (D.buffer[i]?).map fun bs =>
        if D.thr ≤ nErr ∧ f < d.nFrames then bs ++ [((mem i).drop (f * (d.size * d.sizeof))).take (d.size * d.sizeof)] else bs := by
  unfold Dumper.add
  by_cases ht : nErr < D.thr
  · rw [if_pos ht]
    refine ⟨D.buffer, rfl, hB, fun i d _ => ?_⟩
    simp [show ¬ D.thr ≤ nErr by omega]
  rw [if_neg ht]
  have key : (forN D.data.length (fun i B => rd D.data i >>= fun d => addOne f mem i B d) D.buffer).Sat fun B =>
      B.length = D.data.length ∧ ∀ i d, D.data[i]? = some d → B[i]? = if i < D.data.length then (D.buffer[i]?).map fun bs =>
        if D.thr ≤ nErr ∧ f < d.nFrames then bs ++ [((mem i).drop (f * (d.size * d.sizeof))).take (d.size * d.sizeof)] else bs
        else D.buffer[i]? := by
    refine forN_inv (fun k (B : List (List (List Nat))) => B.length = D.data.length ∧ ∀ i d, D.data[i]? = some d →
      B[i]? = if i < k then (D.buffer[i]?).map fun bs =>
        if D.thr ≤ nErr ∧ f < d.nFrames then bs ++ [((mem i).drop (f * (d.size * d.sizeof))).take (d.size * d.sizeof)] else bs
        else D.buffer[i]?) ⟨hB, fun i d _ => by simp⟩ ?_
    rintro k B hk ⟨h1, h2⟩
    have hkd : D.data[k]? = some D.data[k] := List.getElem?_eq_getElem hk
    rw [rd_lt hk, bind_ok]
    generalize D.data[k] = d at hkd
    have hd := hs d (List.mem_of_getElem? hkd)
    unfold addOne
    have e0 : B[k]? = D.buffer[k]? := by rw [h2 k d hkd, if_neg (by omega)]
    have hlt : k < D.buffer.length := by omega
    by_cases hc : f % 2 ^ 32 < d.nFrames
    · rw [if_pos hc]
      have hff : f % 2 ^ 32 = f := Nat.mod_eq_of_lt hf.1
      have hb : d.bytes = d.size * d.sizeof := Nat.mod_eq_of_lt hd
      have hm := hf.2 k d hkd
      have : d.size * d.sizeof * f + d.size * d.sizeof ≤ (mem k).length := by
        refine Nat.le_trans ?_ hm
        rw [← Nat.mul_succ, Nat.mul_comm]
        exact Nat.mul_le_mul_right _ (by omega)
      unfold slice
      rw [hb, if_pos this, bind_ok, rd_lt (show k < B.length by omega), bind_ok, wr_lt (by omega), sat_ok]
      refine ⟨by rw [List.length_set, h1], fun i e hi => ?_⟩
      rw [List.getElem?_set]
      by_cases hik : k = i
      · subst hik
        rw [if_pos rfl, if_pos (by omega), if_pos (by omega)]
        have : d = e := by rw [hkd] at hi; exact Option.some.inj hi
        subst this
        rw [List.getElem?_eq_getElem (by omega : k < B.length), List.getElem?_eq_getElem hlt] at e0
        rw [List.getElem?_eq_getElem hlt, Option.map_some, if_pos ⟨by omega, by omega⟩, Option.some.inj e0, Nat.mul_comm f]
      · rw [if_neg hik, h2 i e hi]
        by_cases hlt' : i < k
        · rw [if_pos hlt', if_pos (by omega)]
        · rw [if_neg hlt', if_neg (by omega)]
    · rw [if_neg hc, sat_ok]
      refine ⟨h1, fun i e hi => ?_⟩
      rw [h2 i e hi]
      by_cases hik : k = i
      · subst hik
        have : d = e := by rw [hkd] at hi; exact Option.some.inj hi
        subst this
        rw [if_neg (by omega), if_pos (by omega)]
        have hff : f % 2 ^ 32 = f := Nat.mod_eq_of_lt hf.1
        simp [show ¬ f < d.nFrames by omega]
      · by_cases hlt' : i < k
        · rw [if_pos hlt', if_pos (by omega)]
        · rw [if_neg hlt', if_neg (by omega)]
  obtain ⟨B, e, h1, h2⟩ := key
  refine ⟨B, by rw [e, bind_ok], h1, fun i d hi => ?_⟩
  rw [h2 i d hi, if_pos (List.getElem?_eq_some_iff.1 hi).1]

theorem run_sat (ops : List Op) : ∀ {D : Dumper} (_ : ∀ o ∈ ops, o.Fits D.data)
    (_ : ∀ d ∈ D.data, d.size * d.sizeof < 2 ^ 32) (_ : D.buffer.length = D.data.length),
    ∃ B, D.run ops = ok { D with buffer := B } ∧ B.length = D.data.length ∧
      ∀ (i : Nat) (d : Data) (bs : List (List Nat)), D.data[i]? = some d → D.buffer[i]? = some bs → B[i]? = some (ops.foldl (fun acc o => match o with
        | .clear => []
        | .add nErr f mem => if D.thr ≤ nErr ∧ f < d.nFrames then
            acc ++ [((mem i).drop (f * (d.size * d.sizeof))).take (d.size * d.sizeof)] else acc) bs) := by
  induction ops with
  | nil => exact fun _ _ hB => ⟨_, rfl, hB, fun i d bs _ h => h⟩
  | cons o ops ih =>
    intro D hf hs hB
    have hf' : ∀ o ∈ ops, o.Fits D.data := fun o ho => hf o (List.mem_cons_of_mem _ ho)
    cases o with
    | clear =>
      obtain ⟨B, e, h1, h2⟩ := ih (D := D.clear) hf' hs (by simp [Dumper.clear, hB])
      refine ⟨B, e, h1, fun i d bs hi hb => ?_⟩
      rw [h2 i d [] hi (by simp [Dumper.clear, hb])]
      rfl
    | add nErr f mem =>
      obtain ⟨B, e, h1, h2⟩ := add_sat (hf _ List.mem_cons_self) hs hB
      obtain ⟨B', e', h1', h2'⟩ := ih (D := { D with buffer := B }) hf' hs h1
      refine ⟨B', by rw [Dumper.run, e, bind_ok, e'], h1', fun i d bs hi hb => ?_⟩
      rw [h2' i d _ hi (by show B[i]? = _; rw [h2 i d hi, hb]; rfl)]
      rfl

theorem textBody_ok {d : Data} (bs : List (List Nat)) (h : ∀ b ∈ bs, b.length = d.size * d.sizeof) :
    textBody d bs = ok (bs.map (values d)).flatten := by
  induction bs with
  | nil => rfl
  | cons b bs ih =>
    rw [textBody, ih fun b hb => h b (List.mem_cons_of_mem _ hb)]
    unfold textFrame
    rw [if_pos (by rw [h b List.mem_cons_self]; exact Nat.le_refl _)]
    rfl

theorem path_inj {a b c : String} (h : a ++ "." ++ b = a ++ "." ++ c) : b = c := by
  have h := congrArg String.toList h
  simp only [String.toList_append] at h
  exact String.toList_inj.1 (List.append_cancel_left h)

theorem dumpAll_sat {headers : Bool} {canOpen : String → Bool} {base : String} (l : List (Data × List (List Nat))) (fs : Files)
    (h : ∀ x ∈ l, ∃ c, contents headers x.1 x.2 = ok c) (hn : (l.map fun x => x.1.ext).Nodup) :
    ∃ fs', dumpAll headers canOpen base l fs = ok fs' ∧
      (∀ x ∈ l, canOpen (base ++ "." ++ x.1.ext) = true → ∀ c, contents headers x.1 x.2 = ok c → fs' (base ++ "." ++ x.1.ext) = some c) ∧
      ∀ p, (∀ x ∈ l, p ≠ base ++ "." ++ x.1.ext) → fs' p = fs p := by
  induction l generalizing fs with
  | nil => exact ⟨fs, rfl, fun x hx => by simp at hx, fun p _ => rfl⟩
  | cons x l ih =>
    obtain ⟨d, bs⟩ := x
    obtain ⟨c, hc⟩ := h (d, bs) List.mem_cons_self
    rw [List.map_cons, List.nodup_cons] at hn
    obtain ⟨fs', e, h1, h2⟩ := ih (fun p => if p = base ++ "." ++ d.ext ∧ canOpen p then some c else fs p)
      (fun x hx => h x (List.mem_cons_of_mem _ hx)) hn.2
    refine ⟨fs', by rw [dumpAll, hc, bind_ok, e], fun x hx ho c' hc' => ?_, fun p hp => ?_⟩
    · rcases List.mem_cons.1 hx with rfl | hx
      · rw [h2 _ fun y hy he => hn.1 (List.mem_map.2 ⟨y, hy, (path_inj he).symm⟩), if_pos ⟨rfl, ho⟩]
        rw [hc] at hc'
        injection hc' with hc'
        rw [hc']
      · exact h1 x hx ho c' hc'
    · rw [h2 p fun x hx => hp x (List.mem_cons_of_mem _ hx), if_neg fun hq => hp (d, bs) List.mem_cons_self hq.1]

theorem leNat_leBytes (k n : Nat) (h : n < 256 ^ k) : leNat (leBytes k n) = n := by
  induction k generalizing n with
  | zero => rw [Nat.pow_zero] at h; simp [leBytes, leNat]; omega
  | succ k ih =>
    rw [leBytes, leNat, ih (n / 256) (by rw [Nat.div_lt_iff_lt_mul (by omega), ← Nat.pow_succ]; exact h)]
    omega

theorem leBytes_length (k n : Nat) : (leBytes k n).length = k := by
  induction k generalizing n with
  | zero => rfl
  | succ k ih => rw [leBytes, List.length_cons, ih]

/-- Reading as text a file that starts with the bytes of a number smaller than 2^16 finds no size. -/
theorem asText_size {R : Type} {n : Nat} (h : n < 2 ^ 16) (rest : List Nat) (vals : List (Tok R)) (eol : Bool) :
    (asText (leBytes 4 n ++ rest) vals eol).size = none := by
  have e : leBytes 4 n ++ rest = n % 256 :: n / 256 % 256 :: 0 :: 0 :: rest := by
    simp only [leBytes, List.cons_append, List.nil_append]
    rw [show n / 256 / 256 = 0 by omega]
  rw [e]
  generalize n % 256 = a
  generalize n / 256 % 256 = b
  have w0 : isWs 0 = false := rfl
  have d0 : isDigit 0 = false := rfl
  have w4 : isWs 45 = false := rfl
  have w3 : isWs 43 = false := rfl
  have d4 : isDigit 45 = false := rfl
  have d3 : isDigit 43 = false := rfl
  have z : ∀ r, scanInt (0 :: r) = (none, 0 :: r) := fun r => by simp [scanInt, w0, d0, w4, w3, d4, d3, List.dropWhile_cons, List.takeWhile_cons]
  have z1 : ∀ b r, isDigit b = false → (scanInt (b :: 0 :: r)).1 = none := by
    intro b r hb
    unfold scanInt
    by_cases hw : isWs b = true
    · simp [hw, w0, d0, w4, w3, d4, d3, List.dropWhile_cons, List.takeWhile_cons]
    · by_cases h1 : b = 45
      · subst h1; simp [w0, d0, w4, w3, d4, d3, List.dropWhile_cons, List.takeWhile_cons]
      · by_cases h2 : b = 43
        · subst h2; simp [w0, d0, w4, w3, d4, d3, List.dropWhile_cons, List.takeWhile_cons]
        · simp [hw, h1, h2, hb, w0, d0, w4, w3, d4, d3, List.dropWhile_cons, List.takeWhile_cons]
  unfold asText
  dsimp only
  by_cases hn : (scanInt (a :: b :: 0 :: 0 :: rest)).1 = none
  · rw [if_pos hn]
  rw [if_neg hn]
  have : (scanInt (a :: b :: 0 :: 0 :: rest)).2 = 0 :: 0 :: rest ∨ (isDigit b = false ∧ (scanInt (a :: b :: 0 :: 0 :: rest)).2 = b :: 0 :: 0 :: rest) := by
    revert hn
    unfold scanInt
    by_cases hw : isWs a = true
    · by_cases hw2 : isWs b = true
      · simp [hw, hw2, w0, d0, w4, w3, d4, d3, List.dropWhile_cons, List.takeWhile_cons]
      · by_cases h1 : b = 45
        · subst h1; simp [hw, w0, d0, w4, w3, d4, d3, List.dropWhile_cons, List.takeWhile_cons]
        · by_cases h2 : b = 43
          · subst h2; simp [hw, w0, d0, w4, w3, d4, d3, List.dropWhile_cons, List.takeWhile_cons]
          · by_cases hd : isDigit b = true
            · simp [hw, hw2, h1, h2, hd, w0, d0, w4, w3, d4, d3, List.dropWhile_cons, List.takeWhile_cons]
            · simp [hw, hw2, h1, h2, hd, w0, d0, w4, w3, d4, d3, List.dropWhile_cons, List.takeWhile_cons]
    · by_cases h1 : a = 45 ∨ a = 43
      · by_cases hd : isDigit b = true
        · simp [hw, h1, hd, w0, d0, w4, w3, d4, d3, List.dropWhile_cons, List.takeWhile_cons]
        · simp [hw, h1, hd, w0, d0, w4, w3, d4, d3, List.dropWhile_cons, List.takeWhile_cons]
      · by_cases hda : isDigit a = true
        · by_cases hd : isDigit b = true
          · simp [hw, h1, hda, hd, w0, d0, w4, w3, d4, d3, List.dropWhile_cons, List.takeWhile_cons]
          · simp [hw, h1, hda, hd, w0, d0, w4, w3, d4, d3, List.dropWhile_cons, List.takeWhile_cons]
        · simp [hw, h1, hda, w0, d0, w4, w3, d4, d3, List.dropWhile_cons, List.takeWhile_cons]
  rcases this with h | ⟨hb, h⟩
  · rw [h, z]
  · rw [h]
    exact z1 b _ hb

theorem kept_length {thr i : Nat} {d : Data} {data : List Data} (hd : data[i]? = some d) (ops : List Op) (hf : ∀ o ∈ ops, o.Fits data)
    (acc : List (List Nat)) (ha : ∀ b ∈ acc, b.length = d.size * d.sizeof) :
    ∀ b ∈ ops.foldl (fun acc o => match o with
      | .clear => []
      | .add nErr f mem => if thr ≤ nErr ∧ f < d.nFrames then
          acc ++ [((mem i).drop (f * (d.size * d.sizeof))).take (d.size * d.sizeof)] else acc) acc, b.length = d.size * d.sizeof := by
  induction ops generalizing acc with
  | nil => exact ha
  | cons o ops ih =>
    have hf' : ∀ o ∈ ops, o.Fits data := fun o ho => hf o (List.mem_cons_of_mem _ ho)
    rw [List.foldl_cons]
    refine ih hf' _ ?_
    cases o with
    | clear => intro b hb; cases hb
    | add nErr f mem =>
      have hm := (hf _ List.mem_cons_self).2 i d hd
      show ∀ b ∈ (if thr ≤ nErr ∧ f < d.nFrames then
          acc ++ [((mem i).drop (f * (d.size * d.sizeof))).take (d.size * d.sizeof)] else acc), _
      by_cases hc : thr ≤ nErr ∧ f < d.nFrames
      · rw [if_pos hc]
        intro b hb
        rcases List.mem_append.1 hb with hb | hb
        · exact ha b hb
        · rw [List.mem_singleton.1 hb, List.length_take, List.length_drop]
          have : (f + 1) * (d.size * d.sizeof) ≤ d.nFrames * (d.size * d.sizeof) := Nat.mul_le_mul_right _ hc.2
          rw [Nat.add_mul, Nat.one_mul] at this
          omega
      · rw [if_neg hc]
        exact ha

theorem chunk {L : Nat} (bs : List (List Nat)) (hL : ∀ b ∈ bs, b.length = L) : ∀ {i o m : Nat} {b : List Nat}, bs[i]? = some b → o + m ≤ L →
    (bs.flatten.drop (i * L + o)).take m = (b.drop o).take m := by
  induction bs with
  | nil => intro i o m b h; simp at h
  | cons c bs ih =>
    intro i o m b h hm
    have hc := hL c List.mem_cons_self
    rw [List.flatten_cons]
    cases i with
    | zero =>
      rw [List.getElem?_cons_zero] at h
      cases h
      rw [Nat.zero_mul, Nat.zero_add, List.drop_append_of_le_length (by omega), List.take_append_of_le_length (by rw [List.length_drop]; omega)]
    | succ i =>
      rw [List.getElem?_cons_succ] at h
      rw [show (i + 1) * L + o = c.length + (i * L + o) by rw [Nat.add_mul]; omega, List.drop_append]
      rw [List.drop_eq_nil_of_le (by omega), List.nil_append, Nat.add_sub_cancel_left]
      exact ih (fun b hb => hL b (List.mem_cons_of_mem _ hb)) h hm

theorem frames_eq {R : Type} (zero : R) (dec : List Nat → R) (size s : Nat) (bs : List (List Nat))
    (hL : ∀ b ∈ bs, b.length = size * s) : frames zero dec bs.length size s bs.flatten = bs.map (reals dec size s) := by
  unfold frames
  refine List.ext_getElem? fun i => ?_
  rw [List.getElem?_map, List.getElem?_map]
  by_cases hi : i < bs.length
  · rw [List.getElem?_range hi, List.getElem?_eq_getElem hi, Option.map_some, Option.map_some]
    congr 1
    unfold reals
    refine List.map_congr_left fun j hj => ?_
    have hj := List.mem_range.1 hj
    have h1 : (j + 1) * s ≤ size * s := Nat.mul_le_mul_right _ hj
    rw [Nat.add_mul, Nat.one_mul] at h1
    have e := chunk bs hL (List.getElem?_eq_getElem hi) h1
    rw [show (i * size + j) * s = i * (size * s) + j * s by rw [Nat.add_mul, Nat.mul_assoc], e, if_pos]
    rw [List.length_take, List.length_drop, hL _ (List.getElem_mem hi)]
    omega
  · rw [List.getElem?_eq_none (by simp; omega), List.getElem?_eq_none (by omega)]
    rfl

theorem readBinary_eq {R : Type} (zero : R) (sR : Nat) (decR decD decF : List Nat → R) {size s : Nat} {bs : List (List Nat)}
    (hL : ∀ b ∈ bs, b.length = size * s) (hs : 0 < size) (hs' : size < 2 ^ 31) (hb : 0 < bs.length)
    (ht : bs.length * (size * s) < 2 ^ 32) (hc : s = sR ∨ s = 8 ∨ s = 4) (h0 : 0 < s) :
    readBinary zero sR decR decD decF size (leBytes 4 bs.length ++ (leBytes 4 size ++ bs.flatten)) =
      ok (bs.map (reals (if s = sR then decR else if s = 8 then decD else decF) size s)) := by
  have hP : 0 < bs.length * size := Nat.mul_pos hb hs
  have hlt : bs.length * size < 2 ^ 32 := by
    refine Nat.lt_of_le_of_lt ?_ ht
    rw [← Nat.mul_assoc]
    exact Nat.le_mul_of_pos_right _ h0
  have hn : bs.length < 2 ^ 32 := Nat.lt_of_le_of_lt (Nat.le_mul_of_pos_right _ hs) hlt
  have hlen : bs.flatten.length = bs.length * (size * s) := by
    clear ht hb hP hlt hn
    induction bs with
    | nil => simp
    | cons b bs ih =>
      rw [List.flatten_cons, List.length_append, ih fun b hb => hL b (List.mem_cons_of_mem _ hb), hL b List.mem_cons_self, List.length_cons,
        Nat.add_mul]
      omega
  have l4 := leBytes_length 4
  unfold readBinary
  dsimp only
  rw [List.take_append_of_le_length (by rw [l4]; omega), List.take_of_length_le (by rw [l4]; omega)]
  have e1 : (leBytes 4 bs.length ++ (leBytes 4 size ++ bs.flatten)).drop 4 = leBytes 4 size ++ bs.flatten := by
    rw [List.drop_append_of_le_length (by rw [l4]; omega), List.drop_of_length_le (by rw [l4]; omega), List.nil_append]
  have e2 : (leBytes 4 bs.length ++ (leBytes 4 size ++ bs.flatten)).drop 8 = bs.flatten := by
    rw [show (8 : Nat) = 4 + 4 from rfl, ← List.drop_drop, e1, List.drop_append_of_le_length (by rw [l4]; omega),
      List.drop_of_length_le (by rw [l4]; omega), List.nil_append]
  rw [e1, e2, List.take_append_of_le_length (by rw [l4]; omega), List.take_of_length_le (by rw [l4]; omega),
    leNat_leBytes 4 _ (by simpa using hn), leNat_leBytes 4 size (by omega)]
  have e3 : leInt true (leBytes 4 size) = size := by
    unfold leInt
    rw [leNat_leBytes 4 size (by omega), l4, if_neg (by omega)]
  rw [e3, if_neg (by omega), Int.toNat_natCast, Nat.mod_eq_of_lt hlt, if_neg (by omega), if_neg (by simp), hlen, Nat.mod_eq_of_lt ht,
    ← Nat.mul_assoc, Nat.mul_div_cancel_left _ hP]
  have fe := fun dec => frames_eq zero dec size s bs hL
  by_cases c1 : s = sR
  · rw [if_pos c1, if_pos c1, ← c1, fe]
  · rw [if_neg c1, if_neg c1]
    by_cases c2 : s = 8
    · rw [if_pos c2, if_pos c2, ← c2, fe]
    · have c3 : s = 4 := by omega
      rw [if_neg c2, if_neg c2, if_pos c3, ← c3, fe]

end Verif.Dumper
