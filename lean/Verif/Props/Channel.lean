import Verif.Proof.Channel
import Verif.Props.User

/-! # C127–C128: channels -/

namespace Verif.Channel
open Exec
open Verif.User (Tok text)

variable {R : Type}

/-- **C127**, one call.  For every frame size, register width, frame and every values drawn: the Gaussian channel outputs the sum of each value and
its noise, the erasure channel the value or the erasure symbol, the symmetric channel the bit or its complement; the values drawn are stored at the
place of the frame in the noise of the channel and nowhere else; no buffer is accessed out of bounds. -/
theorem C127_call (o : Ops R) (bits : R → Nat) (erased one : R) (isZero : R → Bool) (L : Nat) (hL : 0 < L) (c : Ch R) (draw : List R) (f : Nat)
    (X Y : List R) (hl : c.noised.length = c.N * c.frames) (hf : f < c.frames) (hd : draw.length = c.N) (hX : X.length = c.N)
    (hY : Y.length = c.N) :
    let gives := fun (r : Exec (Ch R × List R)) (g : R → R → R) => ∃ d, r = ok ({ c with noised := d }, List.zipWith g X draw) ∧
      d.length = c.N * c.frames ∧ (∀ i < c.N, d[f * c.N + i]? = draw[i]?) ∧
      (∀ j : Nat, (j < f * c.N ∨ f * c.N + c.N ≤ j) → d[j]? = c.noised[j]?)
    (¬ (c.addUsers = true ∧ c.frames > 1) → gives (c.awgn o draw f X Y) o.add) ∧
    gives (c.erasure bits erased L draw f X Y) (fun x e => if bits e = 0 then x else erased) ∧
    ((∀ e ∈ draw, bits e = 0 ∨ bits e = 1) → gives (c.symmetric bits isZero o.zero one L draw f X Y)
      (fun x e => if bits e = 0 then (if isZero x then o.zero else one) else (if isZero x then one else o.zero))) := by
  refine ⟨fun hu => awgn_does o _ c draw f X Y hl rfl hu hf hd hX hY, ?_, fun hb =>
    symmetric_does bits isZero o.zero one hL c draw f X Y hl hf hd hX hY hb⟩
  obtain ⟨d, e, l1, l2, l3⟩ := erasure_does bits erased hL false { c with addUsers := false } draw f X Y hl rfl (by simp) hf hd hX hY
  refine ⟨d, ?_, l1, l2, l3⟩
  unfold Ch.erasure at e ⊢
  dsimp only at e
  revert e
  cases copyTo draw 0 c.N c.noised (c.N * f) with
  | exc x => intro e; cases e
  | ub => intro e; cases e
  | ok d' =>
    simp only [bind_ok]
    cases forN (c.N / L) (fun v Y => forN L (fun l Y => do
        let x ← rd X (v * L + l)
        let e ← rd d' (c.N * f + (v * L + l))
        wr Y (v * L + l) (if bits e = 0 then x else erased)) Y) Y with
    | exc x => intro e; cases e
    | ub => intro e; cases e
    | ok Y1 =>
      simp only [bind_ok]
      cases forRange (c.N / L * L) c.N (fun i Y => do
          let x ← rd X i
          let e ← rd d' (c.N * f + i)
          wr Y i (if bits e ≠ 0 then erased else x)) Y1 with
      | exc x => intro e; cases e
      | ub => intro e; cases e
      | ok Y2 =>
        intro e
        simp only [bind_ok] at e ⊢
        injection e with e
        injection e with e1 e2
        injection e1 with _ _ _ e3
        rw [e3, e2]

/-- **C127**, several users.  With the users added, the Gaussian channel outputs in the first frame the sum of the frames of all the users and of the
noise drawn. -/
theorem C127_users (o : Ops R) (c : Ch R) (draw X Y : List R) (f : Nat) (hu : c.addUsers = true ∧ c.frames > 1)
    (hl : c.noised.length = c.N * c.frames) (hd : draw.length = c.N) (hX : X.length = c.frames * c.N) (hY : Y.length = c.N) :
    ∃ c', c.awgn o draw f X Y = ok (c', (List.range c.N).map fun i => o.add (sumUsers o c.N c.frames X i) (draw.getD i o.zero)) ∧
      c'.noised.take c.N = draw := by
  obtain ⟨d, e, l1, l2, -⟩ := draw_sat (f := 0) (by omega) hd hl
  rw [Nat.zero_mul] at e
  have e2 := Extractor.store_eq (n := c.N) (out := Y) (g := fun _ => o.zero) (f := fun i Y => wr Y i o.zero) (fun _ _ _ => rfl) (by omega)
  have e3 : (forN c.frames (fun g Y => forN c.N (fun i Y => do
      let a ← rd Y i
      let x ← rd X (g * c.N + i)
      wr Y i (o.add a x)) Y) ((List.range c.N).map fun _ => o.zero)).Sat fun y =>
      y = (List.range c.N).map fun i => sumUsers o c.N c.frames X i := by
    unfold sumUsers
    refine forN_inv (fun k (y : List R) => y = (List.range c.N).map fun i =>
      (List.range k).foldl (fun a g => o.add a (X.getD (g * c.N + i) o.zero)) o.zero) rfl ?_
    rintro k y hk rfl
    refine Sat.mono (forN_inv (fun m (y : List R) => y.length = c.N ∧ ∀ i, i < c.N → y[i]? = some
      ((List.range (if i < m then k + 1 else k)).foldl (fun a g => o.add a (X.getD (g * c.N + i) o.zero)) o.zero)) ⟨by simp, ?_⟩ ?_) ?_
    · intro i hi
      rw [getElem?_mapRange, if_pos hi, if_neg (by omega)]
    · rintro m y hm' ⟨a, b⟩
      have hx : k * c.N + m < X.length := by
        rw [hX]
        calc k * c.N + m < k * c.N + c.N := by omega
          _ = (k + 1) * c.N := by rw [Nat.succ_mul]
          _ ≤ c.frames * c.N := Nat.mul_le_mul_right _ hk
      have hb := b m hm'
      rw [if_neg (by omega)] at hb
      rw [rd_eq hb, bind_ok, rd_lt hx, bind_ok, wr_lt (by omega), sat_ok]
      refine ⟨by rw [List.length_set, a], fun i hi => ?_⟩
      by_cases him : i = m
      · subst him
        rw [List.getElem?_set_self (by omega), if_pos (by omega), List.range_succ, List.foldl_append]
        rw [List.foldl_cons, List.foldl_nil, getD_lt o.zero hx]
      · rw [List.getElem?_set_ne (by omega), b i hi]
        by_cases hlt : i < m
        · rw [if_pos hlt, if_pos (by omega)]
        · rw [if_neg hlt, if_neg (by omega)]
    · rintro y ⟨a, b⟩
      exact eq_mapRange a fun i hi => by rw [b i hi, if_pos hi]
  obtain ⟨y3, e3, rfl⟩ := e3
  have e4 : (forN c.N (fun i Y => do
      let a ← rd Y i
      let e ← rd d i
      wr Y i (o.add a e)) ((List.range c.N).map fun i => sumUsers o c.N c.frames X i)).Sat fun y =>
      y = (List.range c.N).map fun i => o.add (sumUsers o c.N c.frames X i) (draw.getD i o.zero) := by
    refine Sat.mono (forN_inv (fun m (y : List R) => y.length = c.N ∧ ∀ i, i < c.N → y[i]? = some
      (if i < m then o.add (sumUsers o c.N c.frames X i) (draw.getD i o.zero) else sumUsers o c.N c.frames X i)) ⟨by simp, ?_⟩ ?_) ?_
    · intro i hi
      rw [getElem?_mapRange, if_pos hi, if_neg (by omega)]
    · rintro m y hm' ⟨a, b⟩
      have hb := b m hm'
      rw [if_neg (by omega)] at hb
      have hdm := l2 m hm'
      rw [Nat.zero_mul, Nat.zero_add] at hdm
      rw [rd_eq hb, bind_ok, rd_eq (hdm.trans (List.getElem?_eq_getElem (by omega))), bind_ok, wr_lt (by omega), sat_ok]
      refine ⟨by rw [List.length_set, a], fun i hi => ?_⟩
      by_cases him : i = m
      · subst him
        rw [List.getElem?_set_self (by omega), if_pos (by omega), getD_lt o.zero (by omega)]
      · rw [List.getElem?_set_ne (by omega), b i hi]
        by_cases hlt : i < m
        · rw [if_pos hlt, if_pos (by omega)]
        · rw [if_neg hlt, if_neg (by omega)]
    · rintro y ⟨a, b⟩
      exact eq_mapRange a fun i hi => by rw [b i hi, if_pos hi]
  obtain ⟨y4, e4, rfl⟩ := e4
  refine ⟨{ c with noised := d }, ?_, ?_⟩
  · unfold Ch.awgn
    rw [if_pos hu, e, bind_ok, e2, bind_ok, e3, bind_ok, e4, bind_ok]
  · have := slice_eq (f := 0) hd l2
    rwa [Nat.zero_mul, List.drop_zero] at this

/-- **C127**, replay.  Whatever the sequence of calls, the noise of each frame read in the channel after each call, given as frames of noise to the
user channel of the same kind, makes this channel output the same values for the same inputs. -/
theorem C127_replay (o : Ops R) (bits : R → Nat) (erased : R) (L : Nat) (hL : 0 < L) (N frames : Nat)
    (ops : List (List R × Nat × List R × List R)) (h0 : ops ≠ [])
    (ho : ∀ p ∈ ops, p.1.length = N ∧ p.2.1 < frames ∧ p.2.2.1.length = N ∧ p.2.2.2.length = N) :
    let c : Ch R := ⟨N, frames, false, List.replicate (N * frames) o.zero⟩
    let replays := fun (noise : Ch R → List R → Nat → List R → List R → Exec (Ch R × List R))
        (user : User.Chan R → Nat → List R → List R → Exec (User.Chan R × List R)) =>
      ∃ c' outs u', c.run noise ops = ok (c', outs) ∧
        User.Chan.run user ⟨N, frames, outs.map Prod.snd, 0, false, List.replicate (N * frames) o.zero⟩ (ops.map Prod.snd) =
          ok (u', outs.map Prod.fst)
    replays (Ch.awgn o) (User.Chan.add o.zero o.add) ∧ replays (Ch.erasure bits erased L) (User.Chan.erase bits erased L) := by
  have key : ∀ (noise : Ch R → List R → Nat → List R → List R → Exec (Ch R × List R))
      (user : User.Chan R → Nat → List R → List R → Exec (User.Chan R × List R)) (g : R → R → R), Does noise g false →
      (∀ rows : List (List R), 0 < rows.length → (∀ r ∈ rows, r.length = N) → User.Handles user g N frames rows false) →
      ∃ c' outs u', Ch.run noise ⟨N, frames, false, List.replicate (N * frames) o.zero⟩ ops = ok (c', outs) ∧
        User.Chan.run user ⟨N, frames, outs.map Prod.snd, 0, false, List.replicate (N * frames) o.zero⟩ (ops.map Prod.snd) =
          ok (u', outs.map Prod.fst) := by
    intro noise user g D Hn
    obtain ⟨c', e⟩ := run_eq D ops ⟨N, frames, false, List.replicate (N * frames) o.zero⟩ (by simp) rfl (by simp) ho
    have hrows : (ops.map fun p => (List.zipWith g p.2.2.1 p.1, p.1)).map Prod.snd = ops.map Prod.fst := by
      rw [List.map_map]; rfl
    have hlen : 0 < (ops.map Prod.fst).length := by
      rw [List.length_map]; exact List.length_pos_of_ne_nil h0
    have hc : User.COk (⟨N, frames, ops.map Prod.fst, 0, false, List.replicate (N * frames) o.zero⟩ : User.Chan R) N frames
        (ops.map Prod.fst) false 0 := ⟨rfl, rfl, rfl, rfl, (Nat.zero_mod _).symm, by simp⟩
    obtain ⟨u', outs, e2, l2, h2⟩ := User.chan_run (Hn (ops.map Prod.fst) hlen (by
      intro r hr
      obtain ⟨p, hp, rfl⟩ := List.mem_map.mp hr
      exact (ho p hp).1)) hc (ops := ops.map Prod.snd) (by
      intro q hq
      obtain ⟨p, hp, rfl⟩ := List.mem_map.mp hq
      exact (ho p hp).2)
    refine ⟨c', _, u', e, ?_⟩
    rw [hrows, e2]
    congr 2
    rw [List.map_map]
    apply List.ext_getElem?
    intro k
    by_cases hk : k < ops.length
    · obtain ⟨row, hr1, hr2⟩ := h2 k ops[k].2.1 ops[k].2.2.1 ops[k].2.2.2 (by
        rw [List.getElem?_map, List.getElem?_eq_getElem hk]; rfl)
      rw [hr2, List.getElem?_map, List.getElem?_eq_getElem hk]
      unfold User.cyclic at hr1
      rw [Nat.zero_add, Nat.mod_eq_of_lt (by rw [List.length_map]; exact hk), List.getElem?_map, List.getElem?_eq_getElem hk] at hr1
      cases hr1
      rfl
    · rw [List.getElem?_eq_none (by rw [l2, List.length_map]; omega), List.getElem?_eq_none (by rw [List.length_map]; omega)]
  exact ⟨key _ _ _ (awgn_does o false) fun rows a b => User.add_handles a b (by simp),
    key _ _ _ (erasure_does bits erased hL false) fun rows a b => User.erase_handles hL a b⟩

/-- **C127**, Rayleigh channel with complex gains: `H_N` holds the gains drawn and `Y_N` the products of complex numbers plus the noise; with real
gains `H_N` holds the moduli of the gains drawn and `Y_N` the products plus the noise.  The frames share parts of the array of gains, without effect
on the outputs; no buffer is accessed out of bounds. -/
theorem C127_rayleigh (o : Ops R) (N frames f : Nat) (gains noised g n X H Y : List R) (hf : f < frames)
    (hno : noised.length = N * frames) (hn : n.length = N) (hX : X.length = N) (hH : H.length = N) (hY : Y.length = N) :
    (N % 2 = 0 → gains.length = N * frames → g.length = N → ∃ g' n', rayleigh o true N f gains noised g n X H Y =
      ok (g', n', g, (List.range N).map (cplxOut o (X.getD · o.zero) (g.getD · o.zero) (n.getD · o.zero)))) ∧
    (gains.length = 2 * N * frames → g.length = 2 * N → ∃ g' n', rayleigh o false N f gains noised g n X H Y =
      ok (g', n', (List.range N).map (modulus o (g.getD · o.zero)),
        (List.range N).map fun i => o.add (o.mul (X.getD i o.zero) (modulus o (g.getD · o.zero) i)) (n.getD i o.zero))) := by
  have hfit := fits (N := N) hf
  obtain ⟨n', en, ln, vn, -⟩ := draw_sat hf hn hno
  have rn : ∀ i, i < N → rd n' (f * N + i) = ok (n.getD i o.zero) := by
    intro i hi
    rw [rd_eq ((vn i hi).trans (List.getElem?_eq_getElem (by omega))), getD_lt o.zero (by omega)]
  constructor
  · intro h2 hg hgl
    obtain ⟨g', eg, lg, vg, -⟩ := draw_sat hf hgl hg
    have rg : ∀ i, i < N → rd g' (f * N + i) = ok (g.getD i o.zero) := by
      intro i hi
      rw [rd_eq ((vg i hi).trans (List.getElem?_eq_getElem (by omega))), getD_lt o.zero (by omega)]
    refine ⟨g', n', ?_⟩
    unfold rayleigh
    simp only [if_true]
    rw [eg, bind_ok, en, bind_ok]
    have hN : N = 2 * (N / 2) := by omega
    have hN2 : (N + 1) / 2 = N / 2 := by omega
    have hbody := pair2_eq (m := N / 2) (H := H) (Y := Y) (h := fun i => g.getD i o.zero)
      (y := cplxOut o (X.getD · o.zero) (g.getD · o.zero) (n.getD · o.zero))
      (body := fun k (s : List R × List R) => do
        let hre ← rd g' (f * N + 2 * k)
        let H ← wr s.1 (2 * k) hre
        let him ← rd g' (f * N + 2 * k + 1)
        let H ← wr H (2 * k + 1) him
        let nre ← rd n' (f * N + 2 * k)
        let nim ← rd n' (f * N + 2 * k + 1)
        let xre ← rd X (2 * k)
        let xim ← rd X (2 * k + 1)
        let Y ← wr s.2 (2 * k) (o.add (o.sub (o.mul xre hre) (o.mul xim him)) nre)
        let Y ← wr Y (2 * k + 1) (o.add (o.add (o.mul xim hre) (o.mul xre him)) nim)
        ok (H, Y)) (by omega) (by omega) (by
          rintro k ⟨a, b⟩ hk l1 l2
          dsimp only at l1 l2 ⊢
          have q1 : f * N + 2 * k + 1 = f * N + (2 * k + 1) := by omega
          rw [q1, rg (2 * k) (by omega), bind_ok, wr_lt (by omega), bind_ok, rg (2 * k + 1) (by omega), bind_ok,
            wr_lt (by rw [List.length_set]; omega), bind_ok, rn (2 * k) (by omega), bind_ok, rn (2 * k + 1) (by omega), bind_ok,
            rd_getD o.zero (show 2 * k < X.length by omega), bind_ok, rd_getD o.zero (show 2 * k + 1 < X.length by omega), bind_ok,
            wr_lt (by omega), bind_ok, wr_lt (by rw [List.length_set]; omega), bind_ok]
          have c1 : cplxOut o (X.getD · o.zero) (g.getD · o.zero) (n.getD · o.zero) (2 * k) =
              o.add (o.sub (o.mul (X.getD (2 * k) o.zero) (g.getD (2 * k) o.zero))
                (o.mul (X.getD (2 * k + 1) o.zero) (g.getD (2 * k + 1) o.zero))) (n.getD (2 * k) o.zero) := by
            unfold cplxOut; rw [if_pos (by omega)]
          have c2 : cplxOut o (X.getD · o.zero) (g.getD · o.zero) (n.getD · o.zero) (2 * k + 1) =
              o.add (o.add (o.mul (X.getD (2 * k + 1) o.zero) (g.getD (2 * k) o.zero))
                (o.mul (X.getD (2 * k) o.zero) (g.getD (2 * k + 1) o.zero))) (n.getD (2 * k + 1) o.zero) := by
            unfold cplxOut; rw [if_neg (by omega), Nat.add_sub_cancel]
          rw [c1, c2])
    rw [hN2, hbody, bind_ok, ← hN]
    have : (List.range N).map (fun i => g.getD i o.zero) = g :=
      (eq_mapRange hgl fun i hi => by rw [List.getElem?_eq_getElem (by omega), getD_lt o.zero (by omega)]).symm
    rw [this]
  · intro hg hgl
    have hfit2 : f * N + 2 * N ≤ 2 * N * frames := by
      have h1 := Nat.mul_le_mul_left (2 * N) (show f + 1 ≤ frames by omega)
      rw [Nat.mul_add, Nat.mul_one] at h1
      have h2 : f * N ≤ 2 * N * f := by rw [Nat.mul_comm f N, Nat.mul_assoc]; omega
      omega
    obtain ⟨g', eg, lg, vg⟩ := copyTo_sat (src := g) (so := 0) (n := 2 * N) (dst := gains) (d := f * N) (by omega) (by omega)
    have rg : ∀ i, i < 2 * N → rd g' (f * N + i) = ok (g.getD i o.zero) := by
      intro i hi
      have e : g'[f * N + i]? = g[i]? := by rw [vg, if_pos (by omega)]; congr 1; omega
      rw [rd_eq (e.trans (List.getElem?_eq_getElem (by omega))), getD_lt o.zero (by omega)]
    refine ⟨g', n', ?_⟩
    unfold rayleigh
    simp only [Bool.false_eq_true, if_false]
    rw [eg, bind_ok, en, bind_ok]
    rw [pair_eq (n := N) (h := modulus o (g.getD · o.zero))
      (y := fun i => o.add (o.mul (X.getD i o.zero) (modulus o (g.getD · o.zero) i)) (n.getD i o.zero)) hH hY (by
        rintro k ⟨a, b⟩ hk l1 l2
        dsimp only at l1 l2 ⊢
        have q1 : f * N + 2 * k + 1 = f * N + (2 * k + 1) := by omega
        rw [q1, rg (2 * k) (by omega), bind_ok, rg (2 * k + 1) (by omega), bind_ok, wr_lt (by omega), bind_ok,
          rd_getD o.zero (show k < X.length by omega), bind_ok, rd_set_self (by omega), bind_ok, rn k hk, bind_ok, wr_lt (by omega), bind_ok]
        rfl)]
    rw [bind_ok]

/-- **C127**, Rayleigh channel with a file of gains.  Whatever the sequence of calls on a new channel, the gain of sample `i` of call `k` is the gain of
the file of index `(k * N * frames + i) / occ`, cyclically, and the output is the product by this gain plus the noise. -/
theorem C127_gains (o : Ops R) (N occ : Int) (cplx users : Bool) (stock : List R) (frames : Nat) (c : Ray R)
    (hc : Ray.mk? o.zero N occ cplx users stock frames = ok c) (ops : List (List R × List R × List R × List R))
    (ho : ∀ p ∈ ops, p.1.length = N.toNat * frames ∧ p.2.1.length = N.toNat * frames ∧ p.2.2.1.length = N.toNat * frames ∧
      p.2.2.2.length = N.toNat * frames) :
    ∃ c' outs, c.run o ops = ok (c', outs) ∧ outs.length = ops.length ∧ ∀ k n X H Y, ops[k]? = some (n, X, H, Y) → outs[k]? = some
      ((List.range (N.toNat * frames)).map fun i => gainOf o stock occ.toNat (k * (N.toNat * frames) + i),
        (List.range (N.toNat * frames)).map fun i =>
          o.add (o.mul (X.getD i o.zero) (gainOf o stock occ.toNat (k * (N.toNat * frames) + i))) (n.getD i o.zero)) := by
  unfold Ray.mk? at hc
  split at hc
  · cases hc
  split at hc
  · cases hc
  split at hc
  · cases hc
  split at hc
  · cases hc
  rename_i hocc hstock
  injection hc with hc
  have hs : 0 < stock.length := List.length_pos_of_ne_nil hstock
  have ho' : 0 < occ.toNat := by omega
  generalize N.toNat = M at *
  generalize occ.toNat = oc at *
  have h : ROk c M frames oc stock (0 * (M * frames)) := by
    subst hc
    exact ⟨rfl, rfl, rfl, rfl, by simp, by simp, by simp⟩
  have key : ∀ (ops : List (List R × List R × List R × List R)) (c : Ray R) (t : Nat), ROk c M frames oc stock (t * (M * frames)) →
      (∀ p ∈ ops, p.1.length = M * frames ∧ p.2.1.length = M * frames ∧ p.2.2.1.length = M * frames ∧ p.2.2.2.length = M * frames) →
      ∃ c' outs, c.run o ops = ok (c', outs) ∧ outs.length = ops.length ∧ ∀ k n X H Y, ops[k]? = some (n, X, H, Y) → outs[k]? = some
        ((List.range (M * frames)).map fun i => gainOf o stock oc ((t + k) * (M * frames) + i),
          (List.range (M * frames)).map fun i => o.add (o.mul (X.getD i o.zero) (gainOf o stock oc ((t + k) * (M * frames) + i))) (n.getD i o.zero)) := by
    intro ops
    induction ops with
    | nil => intro c t _ _; exact ⟨c, [], rfl, rfl, fun k n X H Y h => by simp at h⟩
    | cons p ops ih =>
      intro c t hc hp
      obtain ⟨n, X, H, Y⟩ := p
      obtain ⟨h1, h2, h3, h4⟩ := hp _ (List.mem_cons_self ..)
      obtain ⟨c1, e1, k1⟩ := step_eq o hc ho' hs h1 h2 h3 h4
      rw [show t * (M * frames) + M * frames = (t + 1) * (M * frames) by rw [Nat.succ_mul]] at k1
      obtain ⟨c2, outs, e2, l2, r2⟩ := ih c1 (t + 1) k1 fun p h => hp p (List.mem_cons_of_mem _ h)
      refine ⟨c2, _, by rw [Ray.run, e1, bind_ok, e2, bind_ok], by simp [l2], ?_⟩
      intro k n' X' H' Y' hk
      cases k with
      | zero => cases hk; rfl
      | succ k =>
        rw [List.getElem?_cons_succ, r2 k n' X' H' Y' hk, show t + 1 + k = t + (k + 1) by omega]
  obtain ⟨c', outs, e, l, r⟩ := key ops c 0 h ho
  refine ⟨c', outs, e, l, fun k n X H Y hk => ?_⟩
  have := r k n X H Y hk
  rwa [Nat.zero_add] at this

/-- **C127**.  A file of gains in which nothing follows the last number is read as its numbers. -/
theorem C127_gains_file (l : List R) (h : l ≠ []) (val : Option R) : readGains false (text l []) val = some (ok l) := by
  induction l generalizing val with
  | nil => exact absurd rfl h
  | cons v l ih =>
    unfold text at ih ⊢
    rw [List.append_nil] at ih ⊢
    rw [List.map_cons, readGains]
    cases l with
    | nil => rfl
    | cons w l =>
      rw [if_neg (by simp), ih (by simp)]

/-- Integers in place of reals for the examples. -/
def intOps : Ops Int := ⟨0, (· + ·), (· - ·), (· * ·), fun x => x + 1000⟩

example : (Ch.mk 3 2 false [0, 0, 0, 0, 0, 0] : Ch Int).awgn intOps [5, -6, 7] 1 [1, 1, 1] [9, 9, 9] =
    ok (⟨3, 2, false, [0, 0, 0, 5, -6, 7]⟩, [6, -5, 8]) := by decide +kernel
example : (Ch.mk 3 2 true [0, 0, 0, 0, 0, 0] : Ch Int).awgn intOps [5, -6, 7] 0 [1, 2, 3, 10, 20, 30] [9, 9, 9] =
    ok (⟨3, 2, true, [5, -6, 7, 0, 0, 0]⟩, [16, 16, 40]) := by decide +kernel
example : (Ch.mk 5 1 false [0, 0, 0, 0, 0] : Ch Int).erasure Int.toNat 99 2 [1, 0, 1, 0, 1] 0 [1, 2, 3, 4, 5] [9, 9, 9, 9, 9] =
    ok (⟨5, 1, false, [1, 0, 1, 0, 1]⟩, [99, 2, 99, 4, 99]) := by decide +kernel
example : (Ch.mk 5 1 false [0, 0, 0, 0, 0] : Ch Int).symmetric Int.toNat (· == 0) 0 1 2 [1, 0, 1, 0, 1] 0 [1, 1, 0, 0, 0] [9, 9, 9, 9, 9] =
    ok (⟨5, 1, false, [1, 0, 1, 0, 1]⟩, [0, 1, 1, 0, 1]) := by decide +kernel
example : rayleigh intOps true 2 1 [0, 0, 0, 0] [0, 0, 0, 0] [2, 3] [100, 200] [5, 7] [0, 0] [0, 0] =
    ok ([0, 0, 2, 3], [0, 0, 100, 200], [2, 3], [89, 229]) := by decide +kernel
example : rayleigh intOps false 2 1 [0, 0, 0, 0, 0, 0, 0, 0] [0, 0, 0, 0] [2, 3, 4, 5] [100, 200] [5, 7] [0, 0] [0, 0] =
    ok ([0, 0, 2, 3, 4, 5, 0, 0], [0, 0, 100, 200], [1013, 1041], [5165, 7487]) := by decide +kernel
example : (do
    let c ← Ray.mk? 0 2 3 false false [7, 8] 2
    let r ← c.run intOps [([0, 0, 0, 1], [1, 1, 1, 1], [0, 0, 0, 0], [0, 0, 0, 0]), ([0, 0, 0, 0], [1, 2, 3, 4], [0, 0, 0, 0], [0, 0, 0, 0])]
    ok r.2) = ok [([7, 7, 7, 8], [7, 7, 7, 9]), ([8, 8, 7, 7], [8, 16, 21, 28])] := by decide +kernel

/-! ## Defects -/

/-- **C128**, **finding**: when an end of line follows the last number, as in files written by editors, the last gain is read twice. -/
theorem C128_last_twice (l : List R) (v : R) (val : Option R) : readGains true (text (l ++ [v]) []) val = some (ok (l ++ [v, v])) := by
  unfold text
  rw [List.append_nil]
  induction l generalizing val with
  | nil => rfl
  | cons w l ih =>
    rw [List.cons_append, List.map_cons, readGains, if_neg (by simp), ih]
    rfl

/-- **C128**, **finding**: the gains used are then not those of the file: with the file `2 3` followed by an end of line, the third sample has gain 3
instead of 2. -/
theorem C128_wrong_gain : ∃ l, readGains true (text [2, 3] []) none = some (ok l) ∧
    gainOf intOps l 1 2 = 3 ∧ gainOf intOps [2, 3] 1 2 = 2 := ⟨[2, 3, 3], rfl, by decide +kernel⟩

/-- **C128**, **finding**: an empty file is not refused: a variable that is not initialised is used as a gain. -/
theorem C128_empty (eol : Bool) : readGains (R := R) eol [] none = some ub := rfl

/-- **C128**, **finding**: with a token that is not a number the reading never ends. -/
theorem C128_garbage (eol : Bool) (l : List R) (rest : List (Tok R)) (val : Option R) :
    readGains eol (text l (.bad :: rest)) val = none := by
  unfold text
  induction l generalizing val with
  | nil => rfl
  | cons v l ih =>
    rw [List.map_cons, List.cons_append, readGains, if_neg (by simp), ih]

end Verif.Channel
