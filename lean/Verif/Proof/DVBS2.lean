import Verif.Model.DVBS2Tables
import Verif.Proof.LDPCEnc
import Mathlib.Data.Int.ModEq

/-! # DVB-S2 tables, parity check matrix and encoder -/

namespace Verif.Sparse
open Exec

/-- The lines of a table: each starts with its number of values. -/
def splitLines : Nat → List Nat → Option (List (List Nat))
  | 0, [] => some []
  | 0, _ :: _ => none
  | _ + 1, [] => none
  | n + 1, nb :: rest => if nb ≤ rest.length then (splitLines n (rest.drop nb)).map (rest.take nb :: ·) else none

theorem splitLines_flatten {n : Nat} {enc : List Nat} {L : List (List Nat)} (h : splitLines n enc = some L) :
    L.length = n ∧ enc = (L.map fun l => l.length :: l).flatten := by
  induction n generalizing enc L with
  | zero =>
    cases enc with
    | nil => simp only [splitLines, Option.some.injEq] at h; subst h; simp
    | cons => simp [splitLines] at h
  | succ n ih =>
    cases enc with
    | nil => simp [splitLines] at h
    | cons nb rest =>
      simp only [splitLines] at h
      split at h
      · rename_i hnb
        rw [Option.map_eq_some_iff] at h
        obtain ⟨L', h1, rfl⟩ := h
        obtain ⟨h2, h3⟩ := ih h1
        refine ⟨by simp [h2], ?_⟩
        rw [List.map_cons, List.flatten_cons, ← h3, List.length_take, Nat.min_eq_left hnb, List.cons_append, List.take_append_drop]
      · cases h

/-- The coherence conditions of a table. -/
def goodTable (d : DVBS2) : Bool :=
  d.NmK ≠ 0 && d.N = d.K + d.NmK && d.K = d.lines * d.M &&
  match splitLines d.lines d.enc with
  | none => false
  | some L => L.all fun l => (l.map (· % d.NmK)).Nodup

structure Table (d : DVBS2) (L : List (List Nat)) : Prop where
  pos : 0 < d.NmK
  N : d.N = d.K + d.NmK
  K : d.K = d.lines * d.M
  len : L.length = d.lines
  enc : d.enc = (L.map fun l => l.length :: l).flatten
  nodup : ∀ l ∈ L, (l.map (· % d.NmK)).Nodup

theorem table_of_good {d : DVBS2} (h : goodTable d = true) : ∃ L, Table d L := by
  unfold goodTable at h
  cases e : splitLines d.lines d.enc with
  | none => rw [e] at h; simp at h
  | some L =>
    rw [e] at h
    simp only [Bool.and_eq_true, decide_eq_true_iff, List.all_eq_true, ne_eq] at h
    obtain ⟨⟨⟨h1, h2⟩, h3⟩, h4⟩ := h
    obtain ⟨h5, h6⟩ := splitLines_flatten e
    exact ⟨L, by omega, h2, h3, h5, h6, h4⟩

/-- Position of line `y` in the table. -/
def lineOff (L : List (List Nat)) (y : Nat) : Nat := ((L.take y).map fun l => l.length :: l).flatten.length

theorem lineOff_succ {L : List (List Nat)} {y : Nat} (hy : y < L.length) : lineOff L (y + 1) = lineOff L y + 1 + L[y].length := by
  unfold lineOff
  rw [← List.take_concat_get' L y hy, List.map_append, List.flatten_append, List.length_append]
  simp
  omega

theorem Table.line {d : DVBS2} {L : List (List Nat)} (h : Table d L) {y : Nat} (hy : y < L.length) :
    d.enc[lineOff L y]? = some L[y].length ∧ ∀ q (hq : q < L[y].length), d.enc[lineOff L y + 1 + q]? = some L[y][q] := by
  have e : d.enc = ((L.take y).map fun l => l.length :: l).flatten ++ (L[y].length :: L[y] ++
      ((L.drop (y + 1)).map fun l => l.length :: l).flatten) := by
    rw [h.enc]
    conv_lhs => rw [← List.take_append_drop y L, List.drop_eq_getElem_cons hy, List.map_append, List.flatten_append, List.map_cons,
      List.flatten_cons]
  refine ⟨?_, fun q hq => ?_⟩
  · rw [e, lineOff, List.getElem?_append_right (Nat.le_refl _), Nat.sub_self]
    rfl
  · rw [e, List.getElem?_append_right (by unfold lineOff; omega)]
    rw [show lineOff L y + 1 + q - ((L.take y).map fun l => l.length :: l).flatten.length = q + 1 by unfold lineOff; omega]
    rw [List.cons_append, List.getElem?_cons_succ, List.getElem?_append_left hq, List.getElem?_eq_getElem hq]

/-- The checks met by message bit `v`. -/
def dvbPos (d : DVBS2) (L : List (List Nat)) (v : Nat) : List Nat :=
  (L.getD (v / d.M) []).map fun e => (e + v % d.M * d.Q) % d.NmK

theorem dvbPos_eq (d : DVBS2) {L : List (List Nat)} {y l : Nat} (hl : l < d.M) (hy : y < L.length) :
    dvbPos d L (y * d.M + l) = L[y].map fun e => (e + l * d.Q) % d.NmK := by
  rw [dvbPos, block_div hl, block_mod hl, getD_lt _ hy]

theorem shift_nodup {l : List Nat} {n : Nat} (h : (l.map (· % n)).Nodup) (a : Nat) : (l.map fun e => (e + a) % n).Nodup := by
  refine List.Nodup.map_on ?_ ((List.Nodup.of_map _ h)) 
  intro x hx y hy e
  have e' : x % n = y % n := Nat.ModEq.add_right_cancel (Nat.ModEq.refl a) e
  exact List.inj_on_of_nodup_map h hx hy e'

theorem dvbPos_nodup {d : DVBS2} {L : List (List Nat)} (h : Table d L) {y l : Nat} (hl : l < d.M) (hy : y < L.length) :
    (dvbPos d L (y * d.M + l)).Nodup := by
  rw [dvbPos_eq d hl hy]
  exact shift_nodup (h.nodup _ (List.getElem_mem hy)) _

/-! ## The encoder -/

/-- Toggling distinct positions of a frame. -/
theorem dvbBit_eq {w : Nat} (hw : 0 < w) {d : DVBS2} {L : List (List Nat)} (h : Table d L) {y l : Nat} (hl : l < d.M) (hy : y < L.length)
    (b : Bool) (f : Nat → Bool) :
    dvbBit d (lineOff L y + 1) L[y].length l (b2v w b) (frame w d.NmK f) =
      ok (frame w d.NmK fun t => f t ^^ (b && decide (t ∈ dvbPos d L (y * d.M + l)))) := by
  unfold dvbBit
  cases b with
  | false =>
    rw [if_neg (by rw [b2v_eq_one hw]; simp)]
    simp
  | true =>
    rw [if_pos (by rw [b2v_eq_one hw])]
    have hnd := dvbPos_nodup h hl hy
    have hlen : (dvbPos d L (y * d.M + l)).length = L[y].length := by rw [dvbPos_eq d hl hy, List.length_map]
    obtain ⟨X, e, hX⟩ := forN_inv (n := L[y].length) (s := frame w d.NmK f)
      (f := fun q Px => rd d.enc (lineOff L y + 1 + q) >>= fun e =>
        rd Px ((e + l * d.Q) % d.NmK) >>= fun x => wr Px ((e + l * d.Q) % d.NmK) (x ^^^ 1#w))
      (fun q (X : List (BitVec w)) => X = frame w d.NmK fun t => f t ^^ decide (t ∈ (dvbPos d L (y * d.M + l)).take q))
      (by simp) (by
        rintro q X hq rfl
        have hp : (L[y][q] + l * d.Q) % d.NmK < d.NmK := Nat.mod_lt _ h.pos
        have hget : (dvbPos d L (y * d.M + l))[q]? = some ((L[y][q] + l * d.Q) % d.NmK) := by
          rw [dvbPos_eq d hl hy, List.getElem?_map, List.getElem?_eq_getElem hq]; rfl
        rw [rd_eq ((h.line hy).2 q hq), bind_ok, rd_frame _ hp, bind_ok,
          show (1#w) = b2v w true from rfl, b2v_xor, wr_frame _ hp, sat_ok]
        apply frame_congr
        intro t _
        rw [List.take_succ, hget]
        have hq' : q < (dvbPos d L (y * d.M + l)).length := by omega
        by_cases ht : t = (L[y][q] + l * d.Q) % d.NmK
        · rw [if_pos ht]
          subst ht
          have hnot : (L[y][q] + l * d.Q) % d.NmK ∉ (dvbPos d L (y * d.M + l)).take q := by
            intro hm
            obtain ⟨k, hk, ek⟩ := List.getElem_of_mem hm
            rw [List.getElem_take] at ek
            rw [List.length_take] at hk
            have : (dvbPos d L (y * d.M + l))[k]'(by omega) = (dvbPos d L (y * d.M + l))[q] := by
              rw [ek]
              rw [List.getElem?_eq_getElem hq'] at hget
              exact (Option.some.inj hget).symm
            have := (hnd.getElem_inj_iff).1 this
            omega
          simp [hnot]
        · rw [if_neg ht]
          simp [ht])
    rw [e, hX, List.take_of_length_le (by omega)]
    simp

/-- The checks of the information part. -/
def dvbConn (d : DVBS2) (L : List (List Nat)) (v t : Nat) : Bool := decide (t ∈ dvbPos d L v)

theorem dvbLines_eq {w : Nat} (hw : 0 < w) {d : DVBS2} {L : List (List Nat)} (h : Table d L) (u : Nat → Bool) :
    ∃ p, dvbLines d (frame w d.K u) (List.replicate d.NmK 0#w) =
      ok (p, frame w d.NmK fun t => bsum d.K fun v => dvbConn d L v t && u v) := by
  unfold dvbLines
  have hrep : List.replicate d.NmK 0#w = frame w d.NmK fun _ => false := by
    apply eq_mapRange (by simp)
    intro i hi
    rw [List.getElem?_replicate, if_pos hi]
    rfl
  obtain ⟨⟨p, X⟩, e, h1, h2⟩ := forN_inv (n := d.lines) (s := (0, List.replicate d.NmK 0#w))
    (f := fun y s => rd d.enc s.1 >>= fun nb =>
      forN d.M (fun l Px => rd (frame w d.K u) (y * d.M + l) >>= fun u => dvbBit d (s.1 + 1) nb l u Px) s.2 >>= fun Px =>
      ok (s.1 + 1 + nb, Px))
    (fun y (s : Nat × List (BitVec w)) => s.1 = lineOff L y ∧ s.2 = frame w d.NmK fun t => bsum (y * d.M) fun v => dvbConn d L v t && u v)
    ⟨by simp [lineOff], by simp only [Nat.zero_mul]; rw [hrep]; rfl⟩ (by
      rintro y ⟨p, X⟩ hy ⟨rfl, rfl⟩
      have hy' : y < L.length := by rw [h.len]; exact hy
      simp only []
      rw [rd_eq (h.line hy').1, bind_ok]
      obtain ⟨Y, e, hY⟩ := forN_inv (n := d.M) (s := frame w d.NmK fun t => bsum (y * d.M) fun v => dvbConn d L v t && u v)
        (f := fun l Px => rd (frame w d.K u) (y * d.M + l) >>= fun u => dvbBit d (lineOff L y + 1) L[y].length l u Px)
        (fun l (X : List (BitVec w)) => X = frame w d.NmK fun t => bsum (y * d.M + l) fun v => dvbConn d L v t && u v) rfl (by
          rintro l X hl rfl
          rw [rd_frame u (by rw [h.K]; exact block_lt hy hl), bind_ok, dvbBit_eq hw h hl hy', sat_ok]
          apply frame_congr
          intro t _
          rw [← Nat.add_assoc, bsum_succ, dvbConn, Bool.and_comm])
      rw [e, bind_ok, sat_ok]
      refine ⟨(lineOff_succ hy').symm, ?_⟩
      simp only []
      rw [hY, Nat.add_mul, Nat.one_mul])
  refine ⟨p, ?_⟩
  rw [e]
  simp only [] at h2
  rw [h2, ← h.K]

theorem encDVBS2_eq {w : Nat} (hw : 0 < w) {d : DVBS2} {L : List (List Nat)} (h : Table d L) (u : Nat → Bool) :
    encDVBS2 d (frame w d.K u) = ok (frame w d.N (accWord d.K u fun t => bsum d.K fun v => dvbConn d L v t && u v)) := by
  unfold encDVBS2
  rw [if_neg (by have := h.pos; omega)]
  obtain ⟨S, e1, h1, h1'⟩ := copy_frame (w := w) (n := d.K) u (X := List.replicate d.K 0#w) (by simp) (Nat.le_refl _)
  obtain ⟨p, e2⟩ := dvbLines_eq hw h u
  rw [e1, bind_ok, e2, bind_ok]
  simp only []
  set s : Nat → Bool := fun t => bsum d.K fun v => dvbConn d L v t && u v with hs
  obtain ⟨X, e, hX⟩ := forRange_inv (a := 1) (b := d.NmK) (s := frame w d.NmK s)
    (f := fun i Px => rd Px i >>= fun a => rd Px (i - 1) >>= fun b => wr Px i (a ^^^ b))
    (fun k (X : List (BitVec w)) => X = frame w d.NmK fun t => if t < k then bsum (t + 1) s else s t) h.pos (by
      apply frame_congr
      intro t _
      by_cases ht : t < 1
      · have : t = 0 := by omega
        subst this
        simp [bsum]
      · rw [if_neg ht]) (by
      rintro i X h1 h2 rfl
      rw [rd_frame _ h2, bind_ok, rd_frame _ (by omega), bind_ok, b2v_xor, wr_frame _ h2, sat_ok]
      apply frame_congr
      intro t _
      by_cases ht : t = i
      · subst ht
        rw [if_pos rfl, if_neg (by omega), if_pos (by omega), if_pos (by omega), show t - 1 + 1 = t by omega, bsum_succ,
          Bool.xor_comm]
      · rw [if_neg ht]
        by_cases ht' : t < i
        · rw [if_pos ht', if_pos (by omega)]
        · rw [if_neg ht', if_neg (by omega)])
  rw [e, bind_ok, hX]
  congr 1
  apply eq_mapRange (by rw [List.length_append, h1, frame_length, h.N])
  intro i hi
  unfold accWord
  split
  · rename_i hik
    rw [List.getElem?_append_left (by omega)]
    exact h1' i hik
  · rename_i hik
    have hN := h.N
    rw [List.getElem?_append_right (by omega), h1, frame_get _ (by omega), if_pos (by omega)]

/-! ## The parity check matrix -/

/-- Connections of the parity check matrix. -/
def dvbSet (d : DVBS2) (L : List (List Nat)) (v t : Nat) : Prop :=
  if v < d.K then t ∈ dvbPos d L v else v - d.K = t ∨ v - d.K + 1 = t

instance (d : DVBS2) (L : List (List Nat)) (v t : Nat) : Decidable (dvbSet d L v t) := by unfold dvbSet; infer_instance

theorem buildH_sat {d : DVBS2} {L : List (List Nat)} (h : Table d L) :
    (buildH d).Sat fun H => Represents H ⟨d.N, d.NmK, (Finset.range d.N ×ˢ Finset.range d.NmK).filter fun p => dvbSet d L p.1 p.2⟩ := by
  unfold buildH
  rw [if_neg (by have := h.pos; omega)]
  have hN := h.N
  refine Sat.bind (P := fun s : Nat × Mat => Represents s.2 ⟨d.N, d.NmK, (Finset.range d.N ×ˢ Finset.range d.NmK).filter fun p =>
    dvbSet d L p.1 p.2 ∧ p.1 < d.K⟩) ?_ fun s hs => ?_
  · refine (forN_inv (fun y (s : Nat × Mat) => s.1 = lineOff L y ∧ Represents s.2 ⟨d.N, d.NmK,
      (Finset.range d.N ×ˢ Finset.range d.NmK).filter fun p => dvbSet d L p.1 p.2 ∧ p.1 < y * d.M⟩) ?_ ?_).mono ?_
    · exact ⟨by simp [lineOff], represents_new' _ _ (P := fun v t => dvbSet d L v t ∧ v < 0 * d.M) fun v t _ _ => by simp⟩
    · rintro y ⟨p, H⟩ hy ⟨rfl, hH⟩
      have hy' : y < L.length := by rw [h.len]; exact hy
      simp only [] at hH ⊢
      rw [rd_eq (h.line hy').1, bind_ok]
      refine Sat.bind (P := fun H => Represents H ⟨d.N, d.NmK, (Finset.range d.N ×ˢ Finset.range d.NmK).filter fun p =>
        dvbSet d L p.1 p.2 ∧ p.1 < y * d.M + d.M⟩) ?_ fun H hH => ?_
      · refine forN_inv (fun l (H : Mat) => Represents H ⟨d.N, d.NmK, (Finset.range d.N ×ˢ Finset.range d.NmK).filter fun p =>
          dvbSet d L p.1 p.2 ∧ p.1 < y * d.M + l⟩) hH ?_
        intro l H hl hH
        have hv : y * d.M + l < d.K := by rw [h.K]; exact block_lt hy hl
        have hpos := dvbPos_eq d hl hy'
        have hnd := dvbPos_nodup h hl hy'
        generalize hgv : y * d.M + l = v at hH hv hpos hnd ⊢
        refine (forN_inv (fun q (H : Mat) => Represents H ⟨d.N, d.NmK, (Finset.range d.N ×ˢ Finset.range d.NmK).filter fun p =>
          (dvbSet d L p.1 p.2 ∧ p.1 < v) ∨ (p.1 = v ∧ p.2 ∈ (dvbPos d L v).take q)⟩) ?_ ?_).mono ?_
        · exact represents_weaken (P := fun x t => dvbSet d L x t ∧ x < v)
            (Q := fun x t => (dvbSet d L x t ∧ x < v) ∨ (x = v ∧ t ∈ (dvbPos d L v).take 0)) hH fun x t _ _ => by simp
        · intro q H hq hH
          have hget : (dvbPos d L v)[q]? = some ((L[y][q] + l * d.Q) % d.NmK) := by
            rw [hpos, List.getElem?_map, List.getElem?_eq_getElem hq]; rfl
          have hq' : q < (dvbPos d L v).length := (List.getElem?_eq_some_iff.1 hget).1
          rw [rd_eq ((h.line hy').2 q hq), bind_ok]
          refine orThrow_add' (P := fun x t => (dvbSet d L x t ∧ x < v) ∨ (x = v ∧ t ∈ (dvbPos d L v).take q))
            (Q := fun x t => (dvbSet d L x t ∧ x < v) ∨ (x = v ∧ t ∈ (dvbPos d L v).take (q + 1))) hH (by omega)
            (Nat.mod_lt _ h.pos) ?_ ?_
          · rintro (⟨_, a⟩ | ⟨_, hm⟩)
            · omega
            · obtain ⟨k, hk, ek⟩ := List.getElem_of_mem hm
              rw [List.getElem_take] at ek
              rw [List.length_take] at hk
              have : (dvbPos d L v)[k]'(by omega) = (dvbPos d L v)[q] := by
                rw [ek]
                rw [List.getElem?_eq_getElem hq'] at hget
                exact (Option.some.inj hget).symm
              have := (hnd.getElem_inj_iff).1 this
              omega
          · intro x t _ _
            rw [List.take_succ, hget]
            simp only [Option.toList_some, List.mem_append, List.mem_singleton]
            tauto
        · intro H hH
          have hlen : (dvbPos d L v).length = L[y].length := by rw [hpos, List.length_map]
          refine represents_weaken (P := fun x t => (dvbSet d L x t ∧ x < v) ∨ (x = v ∧ t ∈ (dvbPos d L v).take L[y].length))
            (Q := fun x t => dvbSet d L x t ∧ x < y * d.M + (l + 1)) hH fun x t _ _ => ?_
          rw [List.take_of_length_le (by omega), ← Nat.add_assoc, hgv]
          constructor
          · rintro (⟨a, b⟩ | ⟨rfl, b⟩)
            · exact ⟨a, by omega⟩
            · refine ⟨?_, by omega⟩
              rw [dvbSet, if_pos hv]
              exact b
          · rintro ⟨a, b⟩
            by_cases e : x = v
            · subst e
              rw [dvbSet, if_pos hv] at a
              exact Or.inr ⟨rfl, a⟩
            · exact Or.inl ⟨a, by omega⟩
      · rw [sat_ok]
        refine ⟨(lineOff_succ hy').symm, ?_⟩
        simp only []
        rw [Nat.add_mul, Nat.one_mul]
        exact hH
    · rintro ⟨p, H⟩ ⟨_, hH⟩
      rw [← h.K] at hH
      exact hH
  · obtain ⟨p, H⟩ := s
    simp only [] at hs ⊢
    refine (forRange_inv (fun x (H : Mat) => Represents H ⟨d.N, d.NmK, (Finset.range d.N ×ˢ Finset.range d.NmK).filter fun p =>
      dvbSet d L p.1 p.2 ∧ p.1 < x⟩) (by omega) hs ?_).mono ?_
    · intro x H h1 h2 hH
      refine Sat.bind (P := fun H => Represents H ⟨d.N, d.NmK, (Finset.range d.N ×ˢ Finset.range d.NmK).filter fun p =>
        dvbSet d L p.1 p.2 ∧ (p.1 < x ∨ (p.1 = x ∧ p.2 = x - d.K))⟩) ?_ fun H hH => ?_
      · refine orThrow_add' (P := fun v t => dvbSet d L v t ∧ v < x)
          (Q := fun v t => dvbSet d L v t ∧ (v < x ∨ (v = x ∧ t = x - d.K))) hH h2 (by omega) (by omega) fun v t _ _ => ?_
        constructor
        · rintro ⟨a, b | b⟩
          · exact Or.inl ⟨a, b⟩
          · exact Or.inr b
        · rintro (⟨a, b⟩ | ⟨rfl, rfl⟩)
          · exact ⟨a, Or.inl b⟩
          · refine ⟨?_, Or.inr ⟨rfl, rfl⟩⟩
            rw [dvbSet, if_neg (by omega)]
            exact Or.inl rfl
      · split
        · rename_i hlt
          refine orThrow_add' (P := fun v t => dvbSet d L v t ∧ (v < x ∨ (v = x ∧ t = x - d.K)))
            (Q := fun v t => dvbSet d L v t ∧ v < x + 1) hH h2 hlt (by omega) fun v t _ _ => ?_
          constructor
          · rintro ⟨a, b⟩
            by_cases e : v = x
            · subst e
              have a' := a
              rw [dvbSet, if_neg (by omega)] at a'
              rcases a' with a' | a'
              · exact Or.inl ⟨a, Or.inr ⟨rfl, a'.symm⟩⟩
              · exact Or.inr ⟨rfl, a'.symm⟩
            · exact Or.inl ⟨a, Or.inl (by omega)⟩
          · rintro (⟨a, b⟩ | ⟨rfl, rfl⟩)
            · exact ⟨a, by omega⟩
            · refine ⟨?_, by omega⟩
              rw [dvbSet, if_neg (by omega)]
              exact Or.inr rfl
        · rename_i hlt
          rw [sat_ok]
          refine represents_weaken (P := fun v t => dvbSet d L v t ∧ (v < x ∨ (v = x ∧ t = x - d.K)))
            (Q := fun v t => dvbSet d L v t ∧ v < x + 1) hH fun v t _ ht => ?_
          constructor
          · rintro ⟨a, b⟩; exact ⟨a, by omega⟩
          · rintro ⟨a, b⟩
            refine ⟨a, ?_⟩
            by_cases e : v = x
            · subst e
              rw [dvbSet, if_neg (by omega)] at a
              omega
            · omega
    · intro H hH
      exact represents_weaken (P := fun v t => dvbSet d L v t ∧ v < d.N) (Q := fun v t => dvbSet d L v t) hH
        fun v t hv _ => by simp [hv]

theorem dvb_satisfied {d : DVBS2} {L : List (List Nat)} (h : Table d L) (u : Nat → Bool) {c : Nat} (hc : c < d.NmK) :
    Satisfied ⟨d.N, d.NmK, (Finset.range d.N ×ˢ Finset.range d.NmK).filter fun p => dvbSet d L p.1 p.2⟩
      (accWord d.K u fun t => bsum d.K fun v => dvbConn d L v t && u v) c := by
  have hN := h.N
  refine acc_satisfied (M := d.NmK) hN hc ?_ ?_
  · intro j hj
    rw [Finset.mem_filter, Finset.mem_product, Finset.mem_range, Finset.mem_range]
    simp only [dvbSet]
    rw [if_neg (by omega)]
    constructor
    · rintro ⟨_, a⟩; omega
    · intro a; exact ⟨⟨by omega, hc⟩, by omega⟩
  · apply bsum_congr
    intro v hv
    congr 1
    rw [dvbConn]
    rw [decide_eq_decide, Finset.mem_filter, Finset.mem_product, Finset.mem_range, Finset.mem_range]
    simp only [dvbSet, if_pos hv]
    constructor
    · intro a; exact ⟨⟨by omega, hc⟩, a⟩
    · exact fun a => a.2

theorem all_good : (dvbs2Cases.all fun c => goodTable c.2.2) = true := by decide +kernel

end Verif.Sparse
