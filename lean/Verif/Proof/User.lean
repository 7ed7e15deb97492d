import Verif.Spec.User
import Verif.Prelude.Loops
import Verif.Proof.Extractor

/-! # User files: auxiliary results -/

namespace Verif.User
open Exec

theorem get_num {α : Type} (z v : α) (r : List (Tok α)) : Strm.get z ⟨.num v :: r, false⟩ = (⟨r, false⟩, some v) := rfl

theorem readRow_ok {α β : Type} (z : α) (f : α → β) (l : List α) (rest : List (Tok α)) :
    readRow z f l.length ⟨text l rest, false⟩ = ok (⟨rest, false⟩, l.map f) := by
  induction l with
  | nil => rfl
  | cons a l ih =>
    show (readRow z f l.length ⟨text l rest, false⟩ >>= fun r => ok (r.1, f a :: r.2)) = _
    rw [ih, bind_ok]; rfl

theorem readRow_ok' {α β : Type} (z : α) (f : α → β) (l : List α) (rest : List (Tok α)) {n : Nat} (h : l.length = n) :
    readRow z f n ⟨text l rest, false⟩ = ok (⟨rest, false⟩, l.map f) := by
  rw [← h, readRow_ok]

theorem text_append {α : Type} (l m : List α) (rest : List (Tok α)) : text (l ++ m) rest = text l (text m rest) := by
  simp [text]

theorem readRows_ok {α β : Type} (z : α) (f : α → β) (m : Nat) (rows : List (List α)) (rest : List (Tok α))
    (h : ∀ r ∈ rows, r.length = m) :
    readRows z f m rows.length ⟨text rows.flatten rest, false⟩ = ok (⟨rest, false⟩, rows.map (List.map f)) := by
  induction rows with
  | nil => rfl
  | cons r rows ih =>
    rw [List.length_cons, List.flatten_cons, text_append]
    show (readRow z f m ⟨text r (text rows.flatten rest), false⟩ >>= _) = _
    rw [readRow_ok' z f r _ (h r (by simp)), bind_ok]
    show (readRows z f m rows.length ⟨text rows.flatten rest, false⟩ >>= _) = _
    rw [ih fun r hr => h r (by simp [hr]), bind_ok]; rfl

/-- Reading `a + b` values is reading `a` values then `b` values. -/
theorem readRow_add {α β : Type} (z : α) (f : α → β) (a b : Nat) (s : Strm α) :
    readRow z f (a + b) s = readRow z f a s >>= fun r => readRow z f b r.1 >>= fun q => ok (q.1, r.2 ++ q.2) := by
  induction a generalizing s with
  | zero =>
    rw [Nat.zero_add, readRow, bind_ok]
    cases readRow z f b s <;> rfl
  | succ a ih =>
    rw [show a + 1 + b = (a + b) + 1 by omega, readRow, readRow]
    split
    · rw [ih, Exec.bind_assoc', Exec.bind_assoc']
      congr 1; funext r
      rw [Exec.bind_assoc', bind_ok]
      cases readRow z f b r.1 <;> rfl
    · rfl

theorem readRows_ub {α β : Type} (z : α) (f : α → β) (m n : Nat) (s : Strm α) (h : readRow z f (n * m) s = ub) :
    readRows z f m n s = ub := by
  induction n generalizing s with
  | zero => rw [Nat.zero_mul] at h; cases h
  | succ n ih =>
    rw [Nat.succ_mul, Nat.add_comm, readRow_add] at h
    rw [readRows]
    cases e : readRow z f m s with
    | ub => rfl
    | exc x => rw [e] at h; cases h
    | ok r =>
      rw [e, bind_ok] at h
      rw [bind_ok]
      cases e' : readRow z f (n * m) r.1 with
      | ub => rw [ih _ e']; rfl
      | exc x => rw [e'] at h; cases h
      | ok q => rw [e'] at h; cases h

/-- Reading past the numbers is undefined, except one value that is not a number. -/
theorem readRow_short {α β : Type} (z : α) (f : α → β) (l : List α) (rest : List (Tok α)) {n : Nat}
    (hr : rest = [] ∧ l.length < n ∨ rest.head? = some Tok.bad ∧ l.length + 1 < n) :
    readRow z f n ⟨text l rest, false⟩ = ub := by
  obtain ⟨k, rfl⟩ : ∃ k, n = l.length + (k + 1) := ⟨n - l.length - 1, by rcases hr with h | h <;> omega⟩
  rw [readRow_add, readRow_ok, bind_ok]
  rcases hr with ⟨rfl, _⟩ | ⟨hb, h⟩
  · rfl
  · cases rest with
    | nil => cases hb
    | cons t rest =>
      cases hb
      obtain ⟨k, rfl⟩ : ∃ j, k = j + 1 := ⟨k - 1, by omega⟩
      rfl

/-! ## Frames used cyclically -/

/-- Frames read from a file, of `size` values, next frame number `c`. -/
structure FOk {β : Type} (s : Frames β) (rows : List (List β)) (c : Nat) : Prop where
  rs : s.rows = rows
  counter : s.counter = (c % rows.length : Nat)

theorem copy_whole {α : Type _} {row U : List α} (h : row.length = U.length) : copyTo row 0 row.length U 0 = ok row := by
  obtain ⟨o, e, h1, h2⟩ := copyTo_sat (src := row) (so := 0) (n := row.length) (dst := U) (d := 0) (by omega) (by omega)
  rw [e]
  congr 1
  apply List.ext_getElem?
  intro j
  rw [h2]
  by_cases hj : j < row.length
  · rw [if_pos ⟨by omega, by omega⟩]; simp
  · rw [if_neg (by omega), List.getElem?_eq_none (by omega), List.getElem?_eq_none (by omega)]

theorem next_eq {β : Type} {s : Frames β} {rows : List (List β)} {c m : Nat} (h : FOk s rows c) (h0 : 0 < rows.length)
    (hm : ∀ r ∈ rows, r.length = m) {U : List β} (hU : U.length = m) :
    ∃ s' row, s.next U = ok (s', row) ∧ FOk s' rows (c + 1) ∧ rows[c % rows.length]? = some row := by
  have hc : c % rows.length < rows.length := Nat.mod_lt _ h0
  have hrow : rows[c % rows.length]? = some rows[c % rows.length] := List.getElem?_eq_getElem hc
  refine ⟨{ s with counter := (s.counter + 1).tmod s.rows.length }, rows[c % rows.length], ?_, ⟨h.rs, ?_⟩, hrow⟩
  · unfold Frames.next
    rw [if_neg (by rw [h.counter]; omega), h.rs, h.counter, Int.toNat_natCast, rd_eq hrow, bind_ok,
      copy_whole (by rw [hm _ (List.getElem_mem hc), hU]), bind_ok]
  · show (s.counter + 1).tmod s.rows.length = _
    rw [h.counter, h.rs]
    rw [show ((c % rows.length : Nat) : Int) + 1 = ((c % rows.length + 1 : Nat) : Int) by omega, ← Int.ofNat_tmod,
      Nat.mod_add_mod]

theorem run_eq {β : Type} {s : Frames β} {rows : List (List β)} {c m : Nat} (h : FOk s rows c) (h0 : 0 < rows.length)
    (hm : ∀ r ∈ rows, r.length = m) {Us : List (List β)} (hU : ∀ U ∈ Us, U.length = m) :
    ∃ s' outs, s.run Us = ok (s', outs) ∧ outs.length = Us.length ∧
      ∀ t, t < Us.length → outs[t]? = cyclic rows c t := by
  induction Us generalizing s c with
  | nil => exact ⟨s, [], rfl, rfl, fun t ht => absurd ht (by simp)⟩
  | cons U Us ih =>
    obtain ⟨s1, row, e1, h1, hr⟩ := next_eq h h0 hm (hU U (by simp))
    obtain ⟨s2, outs, e2, h2, h3⟩ := ih h1 fun V hV => hU V (by simp [hV])
    refine ⟨s2, row :: outs, ?_, by simp [h2], ?_⟩
    · rw [Frames.run, e1, bind_ok, e2, bind_ok]
    · intro t ht
      cases t with
      | zero => exact hr.symm
      | succ t =>
        rw [List.getElem?_cons_succ, h3 t (by simpa using ht)]
        unfold cyclic
        rw [show c + 1 + t = c + (t + 1) by omega]

/-! ## Positions of the information bits -/

theorem u32_small {z : Nat} (h : z < 2 ^ 32) : u32 z = z := by
  unfold u32
  omega

theorem readPos_nodup : ∀ (l : List Word) (acc out : List Nat), acc.Nodup → readPos l acc = some out → out.Nodup
  | [], acc, out, h, e => by cases e; exact h
  | .int z :: l, acc, out, h, e => by
    rw [readPos] at e
    by_cases hz : u32 z ∈ acc
    · rw [if_pos hz] at e; cases e
    · rw [if_neg hz] at e
      refine readPos_nodup l _ out ?_ e
      rw [List.nodup_append]
      refine ⟨h, by simp, fun a ha b hb => ?_⟩
      rw [List.mem_singleton] at hb
      rintro rfl; subst hb; exact hz ha
  | .other :: l, acc, out, h, e => by cases e

theorem readInfo_nodup : ∀ (l : List Line) (out : List Nat), readInfo l = some out → out.Nodup
  | [], out, e => by cases e
  | .words _ :: l, out, e => readInfo_nodup l out e
  | .title :: l, out, e => by
    rw [readInfo] at e
    split at e
    · split at e
      · exact readPos_nodup _ _ _ List.nodup_nil e
      · cases e
    · cases e

theorem readPos_ok : ∀ (l acc : List Nat), (acc ++ l).Nodup → (∀ p ∈ l, p < 2 ^ 32) →
    readPos (l.map fun p => .int (p : Nat)) acc = some (acc ++ l)
  | [], acc, _, _ => by simp [readPos]
  | p :: l, acc, h, hp => by
    rw [List.map_cons, readPos, u32_small (hp p (by simp)), if_neg, readPos_ok l (acc ++ [p]) (by simpa using h)
      fun q hq => hp q (by simp [hq])]
    · simp
    · intro hm
      rw [List.nodup_append] at h
      exact h.2.2 p hm p (by simp) rfl

theorem readInfo_skip : ∀ (pre l : List Line), Line.title ∉ pre → readInfo (pre ++ l) = readInfo l
  | [], _, _ => rfl
  | .words _ :: pre, l, h => readInfo_skip pre l (by simp at h; exact h)
  | .title :: pre, l, h => absurd (by simp) h

theorem readInfo_none (l : List Line) (h : Line.title ∉ l) : readInfo l = none := by
  rw [← List.append_nil l, readInfo_skip l [] h, readInfo]

/-! ## Channels -/

/-- A channel at any time: the sizes, the noise and the number of the next frame of noise. -/
structure COk {R : Type} (c : Chan R) (N frames : Nat) (rows : List (List R)) (users : Bool) (t : Nat) : Prop where
  n : c.N = N
  fr : c.frames = frames
  rs : c.rows = rows
  us : c.addUsers = users
  counter : c.counter = t % rows.length
  len : c.noised.length = N * frames

variable {R : Type}

theorem setNoise_eq {c : Chan R} {N frames : Nat} {rows : List (List R)} {users : Bool} {t f : Nat}
    (h : COk c N frames rows users t) (h0 : 0 < rows.length) (hm : ∀ r ∈ rows, r.length = N) (hf : f < frames) :
    ∃ c' row, c.setNoise f = ok c' ∧ COk c' N frames rows users (t + 1) ∧ rows[t % rows.length]? = some row ∧
      row.length = N ∧ ∀ i, i < N → c'.noised[f * N + i]? = row[i]? := by
  have hc : t % rows.length < rows.length := Nat.mod_lt _ h0
  have hrow : rows[t % rows.length]? = some rows[t % rows.length] := List.getElem?_eq_getElem hc
  have hl := hm _ (List.getElem_mem hc)
  generalize rows[t % rows.length] = row at *
  have hfn : f * N + N ≤ N * frames := by
    calc f * N + N = N * (f + 1) := by rw [Nat.mul_add, Nat.mul_one, Nat.mul_comm]
      _ ≤ N * frames := Nat.mul_le_mul_left _ hf
  obtain ⟨o, e, l1, l2⟩ := copyTo_sat (src := row) (so := 0) (n := row.length) (dst := c.noised) (d := f * N) (by omega)
    (by rw [hl, h.len]; exact hfn)
  refine ⟨{ c with noised := o, counter := (c.counter + 1) % c.rows.length }, row, ?_,
    ⟨h.n, h.fr, h.rs, h.us, ?_, by rw [← h.len, ← l1]⟩, hrow, hl, fun i hi => ?_⟩
  · unfold Chan.setNoise
    rw [h.rs, h.counter, rd_eq hrow, bind_ok, h.n, e, bind_ok]
  · show (c.counter + 1) % c.rows.length = _
    rw [h.counter, h.rs, Nat.mod_add_mod]
  · show o[f * N + i]? = _
    rw [l2, if_pos ⟨by omega, by omega⟩]
    congr 1; omega

/-- A frame handler that combines each value with the noise of its position. -/
def Handles (noise : Chan R → Nat → List R → List R → Exec (Chan R × List R)) (g : R → R → R) (N frames : Nat)
    (rows : List (List R)) (users : Bool) : Prop :=
  ∀ c t f X Y, COk c N frames rows users t → f < frames → X.length = N → Y.length = N →
    ∃ c' row, noise c f X Y = ok (c', List.zipWith g X row) ∧ COk c' N frames rows users (t + 1) ∧
      rows[t % rows.length]? = some row

theorem chan_run {noise : Chan R → Nat → List R → List R → Exec (Chan R × List R)} {g : R → R → R} {N frames : Nat}
    {rows : List (List R)} {users : Bool} (H : Handles noise g N frames rows users) {c : Chan R} {t : Nat}
    (hc : COk c N frames rows users t) {ops : List (Nat × List R × List R)}
    (ho : ∀ o ∈ ops, o.1 < frames ∧ o.2.1.length = N ∧ o.2.2.length = N) :
    ∃ c' outs, c.run noise ops = ok (c', outs) ∧ outs.length = ops.length ∧
      ∀ k f X Y, ops[k]? = some (f, X, Y) → ∃ row, cyclic rows t k = some row ∧ outs[k]? = some (List.zipWith g X row) := by
  induction ops generalizing c t with
  | nil => exact ⟨c, [], rfl, rfl, fun k f X Y h => by simp at h⟩
  | cons o ops ih =>
    obtain ⟨f, X, Y⟩ := o
    obtain ⟨h1, h2, h3⟩ := ho _ (List.mem_cons_self ..)
    obtain ⟨c1, row, e1, k1, r1⟩ := H c t f X Y hc h1 h2 h3
    obtain ⟨c2, outs, e2, l2, r2⟩ := ih k1 fun o h => ho o (by simp [h])
    refine ⟨c2, List.zipWith g X row :: outs, ?_, by simp [l2], ?_⟩
    · rw [Chan.run, e1, bind_ok, e2, bind_ok]
    · intro k f' X' Y' hk
      cases k with
      | zero =>
        cases hk
        exact ⟨row, r1, rfl⟩
      | succ k =>
        obtain ⟨row', a, b⟩ := r2 k f' X' Y' hk
        refine ⟨row', ?_, b⟩
        rw [← a]
        unfold cyclic
        rw [show t + (k + 1) = t + 1 + k by omega]

theorem zip_of {g : R → R → R} {X row Y : List R} {N : Nat} (hX : X.length = N) (hr : row.length = N)
    (hY : Y.length = N) (h : ∀ i x e, i < N → X[i]? = some x → row[i]? = some e → Y[i]? = some (g x e)) :
    Y = List.zipWith g X row := by
  apply List.ext_getElem?
  intro i
  rw [List.getElem?_zipWith]
  by_cases hi : i < N
  · rw [h i _ _ hi (List.getElem?_eq_getElem (by omega)) (List.getElem?_eq_getElem (by omega)),
      List.getElem?_eq_getElem (show i < X.length by omega), List.getElem?_eq_getElem (show i < row.length by omega)]
  · rw [List.getElem?_eq_none (by omega), List.getElem?_eq_none (show X.length ≤ i by omega)]

theorem replace_handles {N frames : Nat} {rows : List (List R)} {users : Bool} (h0 : 0 < rows.length)
    (hm : ∀ r ∈ rows, r.length = N) (hu : ¬ (users = true ∧ frames > 1)) :
    Handles Chan.replace (fun _ e => e) N frames rows users := by
  intro c t f X Y hc hf hX hY
  obtain ⟨c', row, e, h1, h2, h3, h4⟩ := setNoise_eq hc h0 hm hf
  have hfn : f * N + N ≤ N * frames := by
    calc f * N + N = N * (f + 1) := by rw [Nat.mul_add, Nat.mul_one, Nat.mul_comm]
      _ ≤ N * frames := Nat.mul_le_mul_left _ hf
  obtain ⟨o, e', l1, l2⟩ := copyTo_sat (src := c'.noised) (so := f * N) (n := N) (dst := Y) (d := 0)
    (by rw [h1.len]; exact hfn) (by omega)
  refine ⟨c', row, ?_, h1, h2⟩
  unfold Chan.replace
  rw [if_neg (by rw [hc.us, hc.fr]; exact hu), e, bind_ok, h1.n, e', bind_ok]
  rw [zip_of (g := fun _ e => e) hX h3 (l1.trans hY) fun i x v hi _ hv => by
    rw [l2, if_pos ⟨by omega, by omega⟩, Nat.sub_zero, h4 i hi, hv]]

theorem add_handles {zero : R} {add : R → R → R} {N frames : Nat} {rows : List (List R)} {users : Bool}
    (h0 : 0 < rows.length) (hm : ∀ r ∈ rows, r.length = N) (hu : ¬ (users = true ∧ frames > 1)) :
    Handles (Chan.add zero add) add N frames rows users := by
  intro c t f X Y hc hf hX hY
  obtain ⟨c', row, e, h1, h2, h3, h4⟩ := setNoise_eq hc h0 hm hf
  refine ⟨c', row, ?_, h1, h2⟩
  unfold Chan.add
  rw [if_neg (by rw [hc.us, hc.fr]; exact hu), e, bind_ok, h1.n]
  obtain ⟨o, e', l1, l2⟩ := Extractor.store_sat (n := N) (out := Y) (g := fun i => (List.zipWith add X row).getD i zero)
    (f := fun i Y => do
      let x ← rd X i
      let e ← rd c'.noised (f * N + i)
      wr Y i (add x e)) (fun i o hi => by
        rw [rd_lt (by omega), bind_ok, rd_eq ((h4 i hi).trans (List.getElem?_eq_getElem (by omega))), bind_ok,
          List.getD_eq_getElem?_getD, List.getElem?_zipWith, List.getElem?_eq_getElem (show i < X.length by omega),
          List.getElem?_eq_getElem (show i < row.length by omega)]
        rfl) (by omega)
  rw [e', bind_ok]
  rw [zip_of (g := add) hX h3 (l1.trans hY) fun i x v hi hx hv => by
    rw [l2, if_pos hi, List.getD_eq_getElem?_getD, List.getElem?_zipWith, hx, hv]; rfl]

/-- The vector loop followed by the scalar loop. -/
theorem two_loops {L N : Nat} (hL : 0 < L) {X D Y : List R} {off : Nat} {gv gs : R → R → R} {row : List R}
    (hX : X.length = N) (hr : row.length = N) (hY : Y.length = N) (hD : ∀ i, i < N → D[off + i]? = row[i]?) :
    (forN (N / L) (fun v Y => forN L (fun l Y => do
      let x ← rd X (v * L + l)
      let e ← rd D (off + (v * L + l))
      wr Y (v * L + l) (gv x e)) Y) Y >>= forRange (N / L * L) N (fun i Y => do
      let x ← rd X i
      let e ← rd D (off + i)
      wr Y i (gs x e))).Sat fun o => o.length = N ∧ ∀ i x e, i < N → X[i]? = some x → row[i]? = some e →
        o[i]? = some (if i < N / L * L then gv x e else gs x e) := by
  rw [forN_nested]
  have hle : N / L * L ≤ N := Nat.div_mul_le_self _ _
  have hread : ∀ i, i < N → ∃ x e, X[i]? = some x ∧ row[i]? = some e := fun i hi =>
    ⟨_, _, List.getElem?_eq_getElem (by omega), List.getElem?_eq_getElem (by omega)⟩
  refine Sat.bind (P := fun o : List R => o.length = N ∧ ∀ i x e, i < N / L * L → X[i]? = some x → row[i]? = some e →
    o[i]? = some (gv x e)) ?_ ?_
  · refine forN_inv (fun k (o : List R) => o.length = N ∧ ∀ i x e, i < k → X[i]? = some x → row[i]? = some e →
      o[i]? = some (gv x e)) ⟨hY, fun i x e hi => absurd hi (by omega)⟩ ?_
    rintro k o hk ⟨a, b⟩
    obtain ⟨x, e, hx, he⟩ := hread k (by omega)
    rw [Nat.div_add_mod', rd_eq hx, bind_ok, rd_eq ((hD k (by omega)).trans he), bind_ok, wr_lt (by omega), sat_ok]
    refine ⟨by rw [List.length_set, a], fun i x' e' hi hx' he' => ?_⟩
    by_cases hik : i = k
    · subst hik
      rw [List.getElem?_set_self (by omega)]
      rw [hx] at hx'; cases hx'; rw [he] at he'; cases he'; rfl
    · rw [List.getElem?_set_ne (by omega), b i x' e' (by omega) hx' he']
  · rintro o ⟨a, b⟩
    refine (forRange_inv (fun k (o : List R) => o.length = N ∧ ∀ i x e, i < k → X[i]? = some x → row[i]? = some e →
      o[i]? = some (if i < N / L * L then gv x e else gs x e)) hle ⟨a, fun i x e hi hx he => by rw [if_pos hi, b i x e hi hx he]⟩
      ?_)
    rintro k o hk hk' ⟨a, b⟩
    obtain ⟨x, e, hx, he⟩ := hread k (by omega)
    rw [rd_eq hx, bind_ok, rd_eq ((hD k (by omega)).trans he), bind_ok, wr_lt (by omega), sat_ok]
    refine ⟨by rw [List.length_set, a], fun i x' e' hi hx' he' => ?_⟩
    by_cases hik : i = k
    · subst hik
      rw [List.getElem?_set_self (by omega), if_neg (by omega)]
      rw [hx] at hx'; cases hx'; rw [he] at he'; cases he'; rfl
    · rw [List.getElem?_set_ne (by omega), b i x' e' (by omega) hx' he']

theorem erase_handles {bits : R → Nat} {erased : R} {L N frames : Nat} {rows : List (List R)} {users : Bool} (hL : 0 < L)
    (h0 : 0 < rows.length) (hm : ∀ r ∈ rows, r.length = N) :
    Handles (Chan.erase bits erased L) (fun x e => if bits e = 0 then x else erased) N frames rows users := by
  intro c t f X Y hc hf hX hY
  obtain ⟨c', row, e, h1, h2, h3, h4⟩ := setNoise_eq hc h0 hm hf
  refine ⟨c', row, ?_, h1, h2⟩
  obtain ⟨o, e', l1, l2⟩ := two_loops hL (gv := fun x e => if bits e = 0 then x else erased)
    (gs := fun x e => if bits e ≠ 0 then erased else x) hX h3 hY (D := c'.noised) (off := N * f)
    fun i hi => by rw [Nat.mul_comm, h4 i hi]
  unfold Chan.erase
  rw [e, bind_ok, h1.n]
  rw [← Exec.bind_assoc', e', bind_ok]
  rw [zip_of (g := fun x e => if bits e = 0 then x else erased) hX h3 l1 fun i x v hi hx hv => by
    rw [l2 i x v hi hx hv]
    by_cases hb : bits v = 0 <;> simp [hb]]

/-- What the scalar loop of the binary symmetric channel computes. -/
def flipScalar (bits : R → Nat) (isZero : R → Bool) (zero one x e : R) : R :=
  if bits e ≠ (if isZero x then 1 else 0) then zero else one

/-- What its vector loop computes. -/
def flipVector (bits : R → Nat) (isZero : R → Bool) (zero one x e : R) : R :=
  if xor (decide (bits e ≠ 0)) (isZero x) then zero else one

theorem flip_eq {bits : R → Nat} {isZero : R → Bool} {zero one : R} {L N frames : Nat} {rows : List (List R)} {users : Bool}
    (hL : 0 < L) (h0 : 0 < rows.length) (hm : ∀ r ∈ rows, r.length = N) {c : Chan R} {t f : Nat} {X Y : List R}
    (hc : COk c N frames rows users t) (hf : f < frames) (hX : X.length = N) (hY : Y.length = N) :
    ∃ c' row o, c.flip bits isZero zero one L f X Y = ok (c', o) ∧ COk c' N frames rows users (t + 1) ∧
      rows[t % rows.length]? = some row ∧ row.length = N ∧ o.length = N ∧
      ∀ i x e, i < N → X[i]? = some x → row[i]? = some e → o[i]? = some
        (if i < N / L * L then flipVector bits isZero zero one x e else flipScalar bits isZero zero one x e) := by
  obtain ⟨c', row, e, h1, h2, h3, h4⟩ := setNoise_eq hc h0 hm hf
  obtain ⟨o, e', l1, l2⟩ := two_loops hL (gv := flipVector bits isZero zero one)
    (gs := flipScalar bits isZero zero one) hX h3 hY (D := c'.noised) (off := N * f)
    fun i hi => by rw [Nat.mul_comm, h4 i hi]
  refine ⟨c', row, o, ?_, h1, h2, h3, l1, l2⟩
  unfold Chan.flip
  rw [e, bind_ok, h1.n]
  rw [← Exec.bind_assoc']
  unfold flipVector flipScalar at e'
  rw [e', bind_ok]

theorem flip_handles {bits : R → Nat} {isZero : R → Bool} {zero one : R} {L N frames : Nat} {rows : List (List R)} {users : Bool}
    (hL : 0 < L) (h0 : 0 < rows.length) (hm : ∀ r ∈ rows, r.length = N) (hb : L ∣ N ∨ ∀ r ∈ rows, ∀ e ∈ r, bits e ≤ 1) :
    Handles (Chan.flip bits isZero zero one L)
      (fun x e => if bits e = 0 then (if isZero x then zero else one) else (if isZero x then one else zero)) N frames rows users := by
  intro c t f X Y hc hf hX hY
  obtain ⟨c', row, o, e, h1, h2, h3, l1, l2⟩ := flip_eq (bits := bits) (isZero := isZero) (zero := zero) (one := one) hL h0 hm hc hf hX hY
  refine ⟨c', row, ?_, h1, h2⟩
  rw [e, zip_of (g := fun x e => if bits e = 0 then (if isZero x then zero else one) else (if isZero x then one else zero)) hX h3 l1
    fun i x v hi hx hv => ?_]
  rw [l2 i x v hi hx hv]
  congr 1
  by_cases hv' : i < N / L * L
  · rw [if_pos hv']
    unfold flipVector
    cases isZero x <;> by_cases hb : bits v = 0 <;> simp [hb]
  · rw [if_neg hv']
    have hb' : bits v ≤ 1 := by
      rcases hb with hb | hb
      · rw [Nat.div_mul_cancel hb] at hv'; exact absurd hi hv'
      · exact hb row (List.mem_of_getElem? h2) v (List.mem_of_getElem? hv)
    unfold flipScalar
    have : bits v = 0 ∨ bits v = 1 := by omega
    cases isZero x <;> rcases this with hb | hb <;> simp [hb]

/-! ## Reading the noise -/

theorem noiseRow_ok (z : R) (eol : Bool) (l : List R) (rest : List (Tok R)) :
    readNoiseRow z eol l.length ⟨text l rest, false⟩ = ok (⟨rest, false⟩, l) := by
  induction l with
  | nil => rfl
  | cons a l ih =>
    rw [List.length_cons, readNoiseRow, if_neg (by simp [text])]
    show (readNoiseRow z eol l.length ⟨text l rest, false⟩ >>= fun r => ok (r.1, a :: r.2)) = _
    rw [ih, bind_ok]

theorem noiseRows_ok (z : R) (eol : Bool) (m : Nat) (rows : List (List R)) (rest : List (Tok R))
    (h : ∀ r ∈ rows, r.length = m) :
    readNoiseRows z eol m rows.length ⟨text rows.flatten rest, false⟩ = ok (⟨rest, false⟩, rows) := by
  induction rows with
  | nil => rfl
  | cons r rows ih =>
    rw [List.length_cons, List.flatten_cons, text_append]
    show (readNoiseRow z eol m ⟨text r (text rows.flatten rest), false⟩ >>= _) = _
    rw [← h r (by simp), noiseRow_ok, bind_ok]
    show (readNoiseRows z eol r.length rows.length ⟨text rows.flatten rest, false⟩ >>= _) = _
    rw [h r (by simp), ih fun r hr => h r (by simp [hr]), bind_ok]

/-- With an end of line after the last value, `eof` is never seen in time. -/
theorem noiseRow_eol (z : R) (n : Nat) (s : Strm R) : readNoiseRow z true n s = readRow z id n s := by
  induction n generalizing s with
  | zero => rfl
  | succ n ih =>
    rw [readNoiseRow, readRow, if_neg (by simp)]
    split
    · rw [ih]; rfl
    · rfl

theorem noiseRows_eol (z : R) (m n : Nat) (s : Strm R) : readNoiseRows z true m n s = readRows z id m n s := by
  induction n generalizing s with
  | zero => rfl
  | succ n ih =>
    rw [readNoiseRows, readRows, noiseRow_eol]
    congr 1; funext r
    rw [ih]

/-! ## The fast random source -/

theorem testBit_eq (x j : Nat) : (x >>> j) &&& 1 = (x.testBit j).toNat := by
  rw [Nat.and_one_is_mod, Nat.testBit, Nat.and_comm, Nat.and_one_is_mod]
  rcases Nat.mod_two_eq_zero_or_one (x >>> j) with h | h <;> simp [h]

theorem randomFast_eq (g : Gens) {L w K : Nat} (hL : 0 < L) (hw : 0 < w) (d : Draws) {U : List Nat} (hU : U.length = K) :
    ∃ d' o, randomFast g L w K d U = ok (d', o) ∧ d' = ⟨d.v + K / (L * w), d.s + (K % (L * w) + (w - 1)) / w⟩ ∧ o.length = K ∧
      (∀ p, p < K / (L * w) * (L * w) →
        o[p]? = some ((g.vec (d.v + p / (L * w)) (p % L)).testBit (p % (L * w) / L)).toNat) ∧
      ∀ p, K / (L * w) * (L * w) + p < K → o[K / (L * w) * (L * w) + p]? = some ((g.sca (d.s + p / w)).testBit (p % w)).toNat := by
  have hP : 0 < L * w := Nat.mul_pos hL hw
  unfold randomFast
  generalize hV : K / (L * w) * (L * w) = V
  have hVK : V ≤ K := by rw [← hV]; exact Nat.div_mul_le_self _ _
  have hKV : K - V = K % (L * w) := by rw [← hV]; have := Nat.div_add_mod' K (L * w); omega
  -- the vector loop
  have hvec : (forN (K / (L * w)) (fun i U => forN w (fun j U => forN L (fun l U =>
      wr U (i * (L * w) + j * L + l) ((g.vec (d.v + i) l >>> j) &&& 1)) U) U) U).Sat fun o => o.length = K ∧
      ∀ p, p < V → o[p]? = some ((g.vec (d.v + p / (L * w)) (p % L)).testBit (p % (L * w) / L)).toNat := by
    have e : (fun i (U : List Nat) => forN w (fun j U => forN L (fun l U =>
        wr U (i * (L * w) + j * L + l) ((g.vec (d.v + i) l >>> j) &&& 1)) U) U) =
        fun i => forN (L * w) (fun k U => wr U (i * (L * w) + k) ((g.vec (d.v + i) (k % L) >>> (k / L)) &&& 1)) := by
      funext i U
      rw [forN_nested w L (fun j l U => wr U (i * (L * w) + j * L + l) ((g.vec (d.v + i) l >>> j) &&& 1)), Nat.mul_comm w L]
      refine forN_congr fun k s _ => ?_
      rw [Nat.add_assoc, Nat.div_add_mod']
    rw [e, forN_nested, hV]
    have e2 : ∀ k (s : List Nat), k < V → (wr s (k / (L * w) * (L * w) + k % (L * w))
        ((g.vec (d.v + k / (L * w)) (k % (L * w) % L) >>> (k % (L * w) / L)) &&& 1)) =
        wr s k ((g.vec (d.v + k / (L * w)) (k % L)).testBit (k % (L * w) / L)).toNat := by
      intro k s _
      rw [Nat.div_add_mod', testBit_eq, Nat.mod_mul_right_mod]
    obtain ⟨o, e', l1, l2⟩ := Extractor.store_sat (f := fun k s => wr s (k / (L * w) * (L * w) + k % (L * w))
        ((g.vec (d.v + k / (L * w)) (k % (L * w) % L) >>> (k % (L * w) / L)) &&& 1)) (out := U) (n := V)
        (g := fun k => ((g.vec (d.v + k / (L * w)) (k % L)).testBit (k % (L * w) / L)).toNat) e2 (by omega)
    exact ⟨o, e', by omega, fun p hp => by rw [l2, if_pos hp]⟩
  obtain ⟨o1, e1, l1, r1⟩ := hvec
  -- the scalar loop
  have hgr : ∀ q, q < (K - V + (w - 1)) / w → V + q * w < K := by
    intro q hq
    have h := (Nat.lt_div_iff_mul_lt hw).mp hq
    rw [Nat.mul_comm] at h
    have : q * w < K - V := by
      have h2 : w * q = q * w := Nat.mul_comm _ _
      omega
    omega
  have hcov : K ≤ V + (K - V + (w - 1)) / w * w := by
    have h := Nat.div_add_mod' (K - V + (w - 1)) w
    have := Nat.mod_lt (K - V + (w - 1)) hw
    omega
  have hsca : (forN ((K - V + (w - 1)) / w) (fun q U => forN (min w (K - (V + q * w))) (fun j U =>
      wr U (V + q * w + j) ((g.sca (d.s + q) >>> j) &&& 1)) U) o1).Sat fun o => o.length = K ∧
      (∀ p, p < V → o[p]? = o1[p]?) ∧
      ∀ p, V + p < K → o[V + p]? = some ((g.sca (d.s + p / w)).testBit (p % w)).toNat := by
    refine Sat.mono (forN_inv (fun q (o : List Nat) => o.length = K ∧ (∀ p, p < V → o[p]? = o1[p]?) ∧
      ∀ p, p < q * w → V + p < K → o[V + p]? = some ((g.sca (d.s + p / w)).testBit (p % w)).toNat)
      ⟨l1, fun _ _ => rfl, fun p hp => absurd hp (by omega)⟩ ?_) ?_
    · rintro q o hq ⟨a, b, c⟩
      obtain ⟨o', e', m1, m2⟩ := forN_fill (n := min w (K - (V + q * w))) (off := V + q * w)
        (g := fun j => (g.sca (d.s + q) >>> j) &&& 1) (out := o) (by have := hgr q hq; omega)
      refine ⟨o', e', m1.trans a, fun p hp => by rw [m2, if_neg (by omega), b p hp], fun p hp hpK => ?_⟩
      rw [m2]
      by_cases hpq : q * w ≤ p
      · rw [Nat.succ_mul] at hp
        rw [if_pos ⟨by omega, by omega⟩, testBit_eq]
        have hd : p / w = q := by
          rw [Nat.div_eq_iff hw]
          constructor <;> omega
        have hmd : p % w = V + p - (V + q * w) := by
          have := Nat.div_add_mod' p w
          rw [hd] at this; omega
        rw [hd, hmd]
      · rw [if_neg (by omega), c p (by omega) hpK]
    · rintro o ⟨a, b, c⟩
      exact ⟨a, b, fun p hp => c p (by omega) hp⟩
  obtain ⟨o2, e2, l2, r2, r3⟩ := hsca
  refine ⟨_, o2, ?_, rfl, l2, fun p hp => by rw [r2 p hp, r1 p hp], r3⟩
  show (forN _ _ U >>= _) = _
  rw [e1, bind_ok]
  show (forN _ _ o1 >>= _) = _
  rw [hV, e2, bind_ok, hKV]

/-- A number with given bits. -/
theorem exists_bits (F : Nat → Bool) : ∀ n, ∃ x, x < 2 ^ n ∧ ∀ j, j < n → x.testBit j = F j
  | 0 => ⟨0, by simp, fun j hj => absurd hj (by omega)⟩
  | n + 1 => by
    obtain ⟨x, hx, h⟩ := exists_bits F n
    refine ⟨2 ^ n * (F n).toNat + x, ?_, fun j hj => ?_⟩
    · rw [Nat.pow_succ]
      cases F n <;> simp <;> omega
    · rw [Nat.testBit_two_pow_mul_add _ hx]
      by_cases hj' : j < n
      · rw [if_pos hj', h j hj']
      · have : j = n := by omega
        subst this
        rw [if_neg (by omega), Nat.sub_self]
        cases F j <;> rfl

end Verif.User
