import Verif.Proof.Monitor

/-! # C28–C30, C57–C59: monitors, reductions, histograms, callbacks -/

namespace Verif.Monitor
open Exec

/-! ## C28 -/

theorem make_agrees {a : Args} (ha : a.Ok) : ∃ m, Mnt.make a = ok m ∧ Agrees a m Log.init := by
  unfold Mnt.make
  rw [if_neg (by have := ha.K; omega)]
  exact ⟨_, rfl, rfl, ⟨rfl, holds_init 0, rfl⟩, rfl, rfl⟩

/-- C28: a call of `check_errors` on all the frames returns the number of wrong bits, notifies the callbacks of every wrong
frame in order (with its number of wrong bits), and leaves the monitor in agreement with the history so far. -/
theorem C28_check (a : Args) (ha : a.Ok) (m : Mnt) (l : Log) (h : Agrees a m l) (U V : List Int) (ho : (Op.check U V).ok a l) :
    ∃ m', m.check U V (-1) true = ok (m', callEvents a l.nFrames U V m'.feLimit, (callErrors a l.nFrames U V).sum) ∧
      Agrees a m' (l.op a (.check U V)) := by
  obtain ⟨h1, h2, h3⟩ := ho
  unfold Mnt.check
  rw [if_neg (by simp), if_neg (by simp)]
  rw [← h.nFrames] at h1 h2 h3 ⊢
  obtain ⟨m', c1, c2, c3, c4, c5, c6⟩ := checkAll_ok ha h.args h.shows h1 h2 h3
  refine ⟨m', c1, c2, ?_, c3.trans h.nFrames, c4.trans h.histOn⟩
  rw [h.histOn, h.nFrames] at c6
  exact c6

theorem op_agrees {a : Args} (ha : a.Ok) {m : Mnt} {l : Log} (h : Agrees a m l) (o : Op) (ho : o.ok a l) :
    ∃ m', m.op o = ok m' ∧ Agrees a m' (l.op a o) := by
  cases o with
  | check U V =>
    obtain ⟨m', h1, h2⟩ := C28_check a ha m l h U V ho
    refine ⟨m', ?_, h2⟩
    show (m.check U V (-1) true >>= fun r => ok r.1) = _
    rw [h1, bind_ok]
  | reset => exact ⟨_, rfl, h.args, ⟨rfl, holds_reset h.shows.hist, h.shows.scale⟩, h.nFrames, h.histOn⟩
  | frames n =>
    have hn : 0 < n := ho
    show ∃ m', m.setFrames n = _ ∧ _
    unfold Mnt.setFrames
    rw [if_neg (by omega)]
    exact ⟨_, rfl, h.args, ⟨h.shows.vals, h.shows.hist, h.shows.scale⟩, rfl, h.histOn⟩
  | hist on => exact ⟨_, rfl, h.args, ⟨h.shows.vals, h.shows.hist, h.shows.scale⟩, h.nFrames, rfl⟩

theorem ops_agree {a : Args} (ha : a.Ok) : ∀ (os : List Op) {m : Mnt} {l : Log}, Agrees a m l → okAll a l os →
    ∃ m', forEach os (fun o m => Mnt.op m o) m = ok m' ∧ Agrees a m' (os.foldl (Log.op a) l)
  | [], m, l, h, _ => ⟨m, rfl, h⟩
  | o :: os, m, l, h, ho => by
    obtain ⟨m1, e1, h1⟩ := op_agrees ha h o ho.1
    obtain ⟨m2, e2, h2⟩ := ops_agree ha os h1 ho.2
    refine ⟨m2, ?_, h2⟩
    rw [forEach_cons, e1, bind_ok, e2]

/-- C28: after any history of `check_errors`, `reset`, `set_n_frames` and `activate_err_histogram` calls, the counters are,
modulo `2^64`, the number of frames compared since the last reset, the number of those with a wrong bit, and the total
number of wrong bits, and the histogram holds the numbers of wrong bits of the wrong frames recorded since. -/
theorem C28_histories (a : Args) (ha : a.Ok) (os : List Op) (ho : okAll a Log.init os) :
    ∃ m0 m, Mnt.make a = ok m0 ∧ forEach os (fun o m => Mnt.op m o) m0 = ok m ∧ Agrees a m (os.foldl (Log.op a) Log.init) := by
  obtain ⟨m0, e0, h0⟩ := make_agrees ha
  obtain ⟨m, e, h⟩ := ops_agree ha os h0 ho
  exact ⟨m0, m, e0, e, h⟩

/-- C28: the counters themselves, when fewer than `2^64` bits were compared. -/
theorem C28_counters (a : Args) (m : Mnt) (l : Log) (h : Agrees a m l) (hl : l.errs.length < 2 ^ 64) (hs : l.errs.sum < 2 ^ 64) :
    m.vals.nFra.toNat = l.errs.length ∧ m.vals.nFe.toNat = l.errs.countP (· ≠ 0) ∧ m.vals.nBe.toNat = l.errs.sum := by
  rw [h.shows.vals]
  unfold Attr.of
  simp only [BitVec.toNat_ofNat]
  refine ⟨Nat.mod_eq_of_lt hl, Nat.mod_eq_of_lt (Nat.lt_of_le_of_lt (List.countP_le_length) hl), Nat.mod_eq_of_lt hs⟩

/-- Two frames of two bits, one of them wrong, then another call: the second frame is wrong twice. -/
example : ((Mnt.make ⟨2, 2, 0, false, 8, 4, 127⟩ >>= fun m => forEach
      [Op.frames 2, .hist true, .check [0, 1, 0, 0] [0, 1, 1, 5], .check [0, 0, 0, 0] [0, 0, 0, 1]] (fun o m => Mnt.op m o) m).toOption.map
    fun m => (m.vals, m.hist.hist, m.isDone)) = some (⟨4, 3, 2⟩, [(1, 1), (2, 1)], true) := by decide +kernel

example : okAll ⟨2, 2, 0, false, 8, 4, 127⟩ Log.init [.frames 2, .hist true, .check [0, 1, 0, 0] [0, 1, 1, 5], .check [0, 0, 0, 0] [0, 0, 0, 1]] ∧
    (⟨2, 2, 0, false, 8, 4, 127⟩ : Args).Ok := by
  refine ⟨⟨Nat.zero_lt_two, trivial, ⟨by decide, by decide, by decide +kernel⟩, ⟨by decide, by decide, by decide +kernel⟩, trivial⟩, by decide, by decide, by decide⟩

/-- C28, defect: `check_errors` with a frame identifier greater than 0 counts all the frames of the task's internal copies,
not the frame designated: the number of frames grows by `n_frames`. -/
theorem C59_frame_id (a : Args) (ha : a.Ok) (m : Mnt) (l : Log) (h : Agrees a m l) (f : Nat) (hf : 0 < f) (hf' : f < l.nFrames)
    (U V : List Int) (hU : l.nFrames * a.K ≤ U.length) (hV : l.nFrames * a.K ≤ V.length) (hK : l.nFrames * a.K < 2 ^ 31)
    (ht0 : (m.tmp 0).length = l.nFrames * a.K) (ht1 : (m.tmp 1).length = l.nFrames * a.K) :
    ∃ m' ev n, m.check U V f true = ok (m', ev, n) ∧ m'.vals.nFra = m.vals.nFra + BitVec.ofNat 64 l.nFrames := by
  have hfK : (f + 1) * a.K ≤ l.nFrames * a.K := Nat.mul_le_mul_right _ hf'
  rw [Nat.add_mul, Nat.one_mul] at hfK
  have cp : ∃ mem : Module.Mem Int, Module.copyIn (sockets a.K) f 1 f ⟨fun s => if s = 0 then U else V, m.tmp, []⟩ = ok mem ∧
      (mem.tmp 0).length = l.nFrames * a.K ∧ (mem.tmp 1).length = l.nFrames * a.K := by
    unfold Module.copyIn
    show ∃ mem, forN 2 _ _ = _ ∧ _
    rw [forN_succ, forN_succ, forN_zero]
    simp only [bind_ok, sockets, Bool.false_eq_true, if_false, Nat.one_mul, if_true]
    unfold Module.readAt Module.writeAt
    rw [if_pos (by omega), bind_ok, if_pos (by simp only [List.length_take, List.length_drop]; omega), bind_ok, bind_ok]
    simp only [show ¬ (1 = 0) from by decide, if_false]
    rw [if_pos (by omega), bind_ok, if_pos (by simp only [List.length_take, List.length_drop]; omega), bind_ok]
    refine ⟨_, rfl, ?_, ?_⟩
    · simp only [show ¬ (0 = 1) from by decide, if_false, if_true, List.length_append, List.length_take, List.length_drop]
      omega
    · simp only [if_true, List.length_append, List.length_take, List.length_drop]
      omega
  obtain ⟨mem, c1, c2, c3⟩ := cp
  unfold Mnt.check
  rw [if_neg (by rw [h.nFrames]; omega), if_pos ⟨by omega, rfl⟩]
  simp only [Int.toNat_natCast]
  rw [h.args, c1, bind_ok]
  have hs : (callErrors a l.nFrames (mem.tmp 0) (mem.tmp 1)).sum < 2 ^ 31 := by
    refine Nat.lt_of_le_of_lt ?_ hK
    have : ∀ n, (callErrors a n (mem.tmp 0) (mem.tmp 1)).sum ≤ n * a.K := by
      intro n
      induction n with
      | zero => simp [callErrors]
      | succ n ih =>
        rw [callErrors_succ, List.sum_append, Nat.add_mul]
        have : frameErrors a (mem.tmp 0) (mem.tmp 1) n ≤ a.K := by
          unfold frameErrors
          refine Nat.le_trans List.countP_le_length ?_
          simp
        simp; omega
    exact this _
  obtain ⟨m', d1, d2, d3, d4, d5, d6⟩ := checkAll_ok ha (m := { m with tmp := mem.tmp }) h.args (errs := l.errs) (recs := l.recs)
    ⟨h.shows.vals, h.shows.hist, h.shows.scale⟩ (U := mem.tmp 0) (V := mem.tmp 1) (by rw [c2]; simp [h.nFrames]) (by rw [c3]; simp [h.nFrames])
    (by simpa [h.nFrames] using hs)
  simp only [h.args] at d1
  refine ⟨m', _, _, d1, ?_⟩
  rw [d6.vals, h.shows.vals]
  unfold Attr.of
  simp only [List.length_append, BitVec.ofNat_add, callErrors, List.length_map, List.length_range, h.nFrames]

/-- A monitor of two frames: `check_errors` of frame 1 alone counts two frames. -/
example : ((Mnt.make ⟨2, 2, 0, false, 8, 4, 127⟩ >>= fun m => m.setFrames 2 >>= fun m => m.check [1, 1, 0, 1] [0, 0, 0, 0] 1 true).toOption.map
    fun m => m.1.vals) = some ⟨2, 1, 1⟩ := by decide +kernel

/-- C59, defect: the status of `check_errors` is an `int`; it overflows when a call finds `2^31` wrong bits or more. -/
theorem C59_overflow : addInt (2 ^ 30) (2 ^ 30) = ub := by decide

/-! ## C29 -/

/-- C29: the monitor is done if and only if one of the two limits is not zero and reached. -/
theorem C29_done (a : Args) (m : Mnt) (l : Log) (h : Agrees a m l) (hl : l.errs.length < 2 ^ 64) :
    (m.isDone = true ↔ (a.maxFe ≠ 0 ∧ a.maxFe ≤ l.errs.countP (· ≠ 0)) ∨ (a.maxFra ≠ 0 ∧ a.maxFra ≤ l.errs.length)) ∧
    (m.feLimit = true ↔ a.maxFe ≠ 0 ∧ a.maxFe ≤ l.errs.countP (· ≠ 0)) := by
  have h1 : m.vals.nFra.toNat = l.errs.length := by
    rw [h.shows.vals]; exact (BitVec.toNat_ofNat ..).trans (Nat.mod_eq_of_lt hl)
  have h2 : m.vals.nFe.toNat = l.errs.countP (· ≠ 0) := by
    rw [h.shows.vals]; exact (BitVec.toNat_ofNat ..).trans (Nat.mod_eq_of_lt (Nat.lt_of_le_of_lt (List.countP_le_length) hl))
  have h3 : m.feLimit = true ↔ a.maxFe ≠ 0 ∧ a.maxFe ≤ l.errs.countP (· ≠ 0) := by
    unfold Mnt.feLimit
    rw [decide_eq_true_iff, h2, h.args]
  refine ⟨?_, h3⟩
  unfold Mnt.isDone
  rw [Bool.or_eq_true, h3]
  unfold Mnt.frameLimit
  rw [decide_eq_true_iff, h1, h.args]

theorem errs_mono (a : Args) : ∀ (os : List Op) (l : Log), (∀ o ∈ os, o ≠ .reset) → ∃ e, (os.foldl (Log.op a) l).errs = l.errs ++ e
  | [], l, _ => ⟨[], by simp⟩
  | o :: os, l, h => by
    obtain ⟨e, he⟩ := errs_mono a os (l.op a o) fun o' ho => h o' (by simp [ho])
    rw [List.foldl_cons, he]
    cases o with
    | check U V => exact ⟨callErrors a l.nFrames U V ++ e, by show (l.errs ++ _) ++ _ = _; rw [List.append_assoc]⟩
    | reset => exact absurd rfl (h .reset (by simp))
    | frames n => exact ⟨e, rfl⟩
    | hist on => exact ⟨e, rfl⟩

/-- C29: once a limit is reached it stays reached, whatever the calls that follow (but `reset`), as long as fewer than
`2^64` frames are compared. -/
theorem C29_stays (a : Args) (ha : a.Ok) (m : Mnt) (l : Log) (h : Agrees a m l) (os : List Op) (ho : okAll a l os)
    (hr : ∀ o ∈ os, o ≠ .reset) (hd : m.isDone = true) (hl : (os.foldl (Log.op a) l).errs.length < 2 ^ 64) :
    ∃ m', forEach os (fun o m => Mnt.op m o) m = ok m' ∧ m'.isDone = true := by
  obtain ⟨m', h1, h2⟩ := ops_agree ha os h ho
  refine ⟨m', h1, ?_⟩
  obtain ⟨e, he⟩ := errs_mono a os l hr
  rw [he, List.length_append] at hl
  rw [(C29_done a m l h (by omega)).1] at hd
  rw [(C29_done a m' _ h2 (by rw [he, List.length_append]; exact hl)).1, he]
  simp only [List.countP_append, List.length_append]
  omega

example : (∀ o ∈ [Op.frames 2, .check [0, 0, 0, 0] [0, 0, 0, 0]], o ≠ Op.reset) := by
  intro o ho
  rcases List.mem_cons.1 ho with rfl | ho
  · exact fun h => by cases h
  · rw [List.mem_singleton.1 ho]; exact fun h => by cases h

/-! ## C30 -/

theorem Attr.add_assoc (x y z : Attr) : (x.add y).add z = x.add (y.add z) := by
  unfold Attr.add; simp only [BitVec.add_assoc]

theorem Attr.add_comm (x y : Attr) : x.add y = y.add x := by
  unfold Attr.add; rw [BitVec.add_comm x.nFra, BitVec.add_comm x.nBe, BitVec.add_comm x.nFe]

theorem Attr.zero_add (x : Attr) : Attr.zero.add x = x := by
  unfold Attr.add Attr.zero; cases x; simp

theorem Attr.add_zero (x : Attr) : x.add Attr.zero = x := by rw [Attr.add_comm, Attr.zero_add]

/-- Sum of the counters of a list of monitors. -/
def total (l : List Mnt) : Attr := l.foldr (fun m s => m.vals.add s) Attr.zero

theorem total_append (l l' : List Mnt) : total (l ++ l') = (total l).add (total l') := by
  induction l with
  | nil => rw [List.nil_append]; exact (Attr.zero_add _).symm
  | cons m l ih =>
    show m.vals.add (total (l ++ l')) = (m.vals.add (total l)).add (total l')
    rw [ih, Attr.add_assoc]

theorem total_perm {l l' : List Mnt} (h : l.Perm l') : total l = total l' := by
  induction h with
  | nil => rfl
  | cons m _ ih => show m.vals.add _ = m.vals.add _; rw [show List.foldr _ _ _ = total _ from rfl, ih]; rfl
  | swap m n l => show n.vals.add (m.vals.add _) = m.vals.add (n.vals.add _); rw [← Attr.add_assoc, Attr.add_comm n.vals, Attr.add_assoc]
  | trans _ _ h1 h2 => exact h1.trans h2

/-- The monitors show the logs `logs` (wrong bits per frame, and those recorded). -/
def ShowAll : List Mnt → List (List Nat × List Nat) → Prop
  | [], [] => True
  | m :: ms, l :: ls => Shows m l.1 l.2 ∧ ShowAll ms ls
  | _, _ => False

theorem collect_all {fully : Bool} : ∀ {ms : List Mnt} {ls : List (List Nat × List Nat)} {c : Mnt} {e r : List Nat}, ShowAll ms ls →
    c.hist.scale = 1 → (fully = true → c.hist.Holds (r.map Int.ofNat)) → c.vals = Attr.of e →
    ∃ c', forEach ms (fun m c => Mnt.collect c m fully) c = ok c' ∧ c'.vals = Attr.of (e ++ ls.flatMap (·.1)) ∧ c'.hist.scale = 1 ∧
      (fully = true → c'.hist.Holds ((r ++ ls.flatMap (·.2)).map Int.ofNat)) ∧ c'.vals = c.vals.add (total ms)
  | [], [], c, e, r, _, h1, h2, h3 => ⟨c, rfl, by simp [h3], h1, by simpa using h2, (Attr.add_zero _).symm⟩
  | m :: ms, l :: ls, c, e, r, hs, h1, h2, h3 => by
    have hc : ∃ c1, Mnt.collect c m fully = ok c1 ∧ c1.vals = c.vals.add m.vals ∧ c1.hist.scale = 1 ∧
        (fully = true → c1.hist.Holds ((r ++ l.2).map Int.ofNat)) := by
      unfold Mnt.collect
      cases fully with
      | false => exact ⟨_, rfl, rfl, h1, fun h => by cases h⟩
      | true =>
        rw [if_pos rfl]
        obtain ⟨h', e1, e2, e3⟩ := holds_merge (h2 rfl) hs.1.hist (h1.trans hs.1.scale.symm)
        rw [e1]
        refine ⟨_, rfl, rfl, e3.trans h1, fun _ => ?_⟩
        rw [List.map_append]
        exact e2
    obtain ⟨c1, d1, d2, d3, d4⟩ := hc
    obtain ⟨c', f1, f2, f3, f4, f5⟩ := collect_all (ls := ls) (e := e ++ l.1) (r := r ++ l.2) hs.2 d3 d4
      (by rw [d2, h3, hs.1.vals, Attr.of_append])
    refine ⟨c', ?_, ?_, f3, ?_, ?_⟩
    · rw [forEach_cons, d1, bind_ok, f1]
    · rw [f2, List.flatMap_cons, List.append_assoc]
    · intro h
      rw [List.flatMap_cons, ← List.append_assoc]
      exact f4 h
    · rw [f5, d2, Attr.add_assoc]; rfl

/-- C30: a reduction yields the counters that a single monitor would have had over the concatenation of the histories of
all the monitors, which is the sum of all their counters; a full reduction does the same for the histograms; the monitors
themselves are not changed. -/
theorem C30_reduce (r : Red) (fully : Bool) (logs : List (List Nat × List Nat)) (h : ShowAll r.mons logs)
    (hc : r.coll.hist.scale = 1) (hs : r.self.hist.scale = 1) :
    ∃ r', r.reduce fully = ok r' ∧ r'.mons = r.mons ∧ r'.self.args = r.self.args ∧
      r'.self.vals = Attr.of (logs.flatMap (·.1)) ∧ r'.self.vals = total r.mons ∧
      (if fully then r'.self.hist.Holds ((logs.flatMap (·.2)).map Int.ofNat) else r'.self.hist = r.self.hist) ∧
      r'.coll.hist.scale = 1 ∧ r'.self.hist.scale = 1 := by
  unfold Red.reduce
  have hr : (Mnt.reset r.coll).hist.Holds [] := ⟨by show 0 < r.coll.hist.scale; omega, List.Pairwise.nil, fun _ => rfl, rfl⟩
  obtain ⟨c, c1, c2, c3, c4, c5⟩ := collect_all (fully := fully) (c := r.coll.reset) (e := []) (r := []) h hc (fun _ => hr) rfl
  rw [c1, bind_ok]
  rw [List.nil_append] at c2
  have c5' : c.vals = total r.mons := c5.trans (Attr.zero_add _)
  unfold Mnt.copy
  cases fully with
  | false => exact ⟨_, rfl, rfl, rfl, c2, c5', rfl, c3, hs⟩
  | true =>
    rw [if_pos rfl]
    obtain ⟨h', e1, e2, e3⟩ := holds_assign (h := r.self.hist) (c4 rfl) (hs.trans c3.symm)
    rw [e1]
    exact ⟨_, rfl, rfl, rfl, c2, c5', e2, c3, e3.trans hs⟩

/-- C30: the result does not depend on the order of the monitors. -/
theorem C30_order (r s r' s' : Red) (fully : Bool) (lr ls : List (List Nat × List Nat)) (hp : r.mons.Perm s.mons)
    (h : ShowAll r.mons lr) (hc : r.coll.hist.scale = 1) (hs : r.self.hist.scale = 1)
    (h' : ShowAll s.mons ls) (hc' : s.coll.hist.scale = 1) (hs' : s.self.hist.scale = 1)
    (er : r.reduce fully = ok r') (es : s.reduce fully = ok s') : r'.self.vals = s'.self.vals := by
  obtain ⟨x, e1, -, -, -, v1, -⟩ := C30_reduce r fully lr h hc hs
  obtain ⟨y, e2, -, -, -, v2, -⟩ := C30_reduce s fully ls h' hc' hs'
  rw [er] at e1; rw [es] at e2
  rw [Exec.ok.inj e1, Exec.ok.inj e2, v1, v2, total_perm hp]

theorem ShowAll.append : ∀ {A B : List Mnt} {x y : List (List Nat × List Nat)}, ShowAll A x → ShowAll B y → ShowAll (A ++ B) (x ++ y)
  | [], _, [], _, _, h => h
  | _ :: _, _, _ :: _, _, h, h' => ⟨h.1, ShowAll.append h.2 h'⟩
  | [], _, _ :: _, _, h, _ => h.elim
  | _ :: _, _, [], _, h, _ => h.elim

/-- C30: the result does not depend on grouping: reducing the monitors of `a` and those of `b`, then the two results, gives
the same counters as reducing all the monitors at once, and histograms of the same values. -/
theorem C30_grouping (a b a' b' c d : Red) (la lb : List (List Nat × List Nat)) (ha : ShowAll a.mons la) (hb : ShowAll b.mons lb)
    (sa : a.coll.hist.scale = 1 ∧ a.self.hist.scale = 1) (sb : b.coll.hist.scale = 1 ∧ b.self.hist.scale = 1)
    (sc : c.coll.hist.scale = 1 ∧ c.self.hist.scale = 1) (sd : d.coll.hist.scale = 1 ∧ d.self.hist.scale = 1)
    (ea : a.reduce true = ok a') (eb : b.reduce true = ok b') (hc : c.mons = [a'.self, b'.self]) (hd : d.mons = a.mons ++ b.mons) :
    ∃ c' d', c.reduce true = ok c' ∧ d.reduce true = ok d' ∧ c'.self.vals = d'.self.vals ∧
      ∃ vals, c'.self.hist.Holds vals ∧ d'.self.hist.Holds vals := by
  obtain ⟨x, e1, -, -, v1, -, h1, -, s1⟩ := C30_reduce a true la ha sa.1 sa.2
  obtain ⟨y, e2, -, -, v2, -, h2, -, s2⟩ := C30_reduce b true lb hb sb.1 sb.2
  rw [ea] at e1; rw [eb] at e2
  rw [← Exec.ok.inj e1] at v1 h1 s1
  rw [← Exec.ok.inj e2] at v2 h2 s2
  obtain ⟨c', e3, -, -, v3, -, h3, -⟩ := C30_reduce c true [(la.flatMap (·.1), la.flatMap (·.2)), (lb.flatMap (·.1), lb.flatMap (·.2))]
    (by rw [hc]; exact ⟨⟨v1, h1, s1⟩, ⟨v2, h2, s2⟩, trivial⟩) sc.1 sc.2
  obtain ⟨d', e4, -, -, v4, -, h4, -⟩ := C30_reduce d true (la ++ lb) (by rw [hd]; exact ha.append hb) sd.1 sd.2
  simp only [List.flatMap_cons, List.flatMap_nil, List.append_nil, List.flatMap_append] at v3 h3 v4 h4
  exact ⟨c', d', e3, e4, v3.trans v4.symm, _, h3, h4⟩

/-- C30: `is_done` of a reduction: with a reduction it tells whether a limit is reached by the sum of all the monitors,
otherwise whether it was at the last one. -/
theorem C30_is_done (r : Red) (now : Bool) (logs : List (List Nat × List Nat)) (h : ShowAll r.mons logs)
    (hc : r.coll.hist.scale = 1) (hs : r.self.hist.scale = 1) (hl : (logs.flatMap (·.1)).length < 2 ^ 64) :
    ∃ r' b, r.isDone now = ok (r', b) ∧
      (now = true → (b = true ↔
        (r.self.args.maxFe ≠ 0 ∧ r.self.args.maxFe ≤ (logs.flatMap (·.1)).countP (· ≠ 0)) ∨
        (r.self.args.maxFra ≠ 0 ∧ r.self.args.maxFra ≤ (logs.flatMap (·.1)).length))) ∧
      (now = false → r' = r ∧ b = r.self.isDone) := by
  unfold Red.isDone
  cases now with
  | false => exact ⟨r, r.self.isDone, rfl, (fun h => by cases h), fun _ => ⟨rfl, rfl⟩⟩
  | true =>
    obtain ⟨r', e1, e2, e3, e4, -⟩ := C30_reduce r false logs h hc hs
    rw [if_pos rfl, e1, bind_ok]
    refine ⟨r', r'.self.isDone, rfl, fun _ => ?_, (fun h => by cases h)⟩
    unfold Mnt.isDone Mnt.feLimit Mnt.frameLimit
    rw [Bool.or_eq_true, decide_eq_true_iff, decide_eq_true_iff, e3, e4]
    unfold Attr.of
    simp only [BitVec.toNat_ofNat]
    rw [Nat.mod_eq_of_lt hl, Nat.mod_eq_of_lt (Nat.lt_of_le_of_lt (List.countP_le_length) hl)]

/-- C30: resetting a reduction resets every monitor: the next reduction counts nothing. -/
theorem C30_reset (r : Red) (logs : List (List Nat × List Nat)) (h : ShowAll r.mons logs) :
    ShowAll r.reset.mons (logs.map fun _ => ([], [])) ∧ r.reset.self.vals = Attr.zero := by
  refine ⟨?_, rfl⟩
  show ShowAll (r.mons.map Mnt.reset) _
  generalize r.mons = ms at h
  induction ms generalizing logs with
  | nil =>
    cases logs with
    | nil => exact trivial
    | cons l ls => exact h.elim
  | cons m ms ih =>
    cases logs with
    | nil => exact h.elim
    | cons l ls => exact ⟨⟨rfl, holds_reset h.1.hist, h.1.scale⟩, ih ls h.2⟩

/-- C30: the constructor refuses an empty list, refuses monitors with different arguments, and otherwise reduces. -/
theorem C30_constructor (m0 : Mnt) (ms : List Mnt) :
    Red.make [] = exc .lengthError ∧
    ((∃ m ∈ ms, ¬ (m0.args.K = m.args.K ∧ m0.args.maxFe = m.args.maxFe ∧ m0.args.maxFra = m.args.maxFra ∧ m0.args.unk = m.args.unk)) →
      Red.make ((m0 :: ms).map some) = exc .runtimeError) ∧
    ((∀ m ∈ ms, m0.args.K = m.args.K ∧ m0.args.maxFe = m.args.maxFe ∧ m0.args.maxFra = m.args.maxFra ∧ m0.args.unk = m.args.unk) →
      Red.make ((m0 :: ms).map some) = Red.reduce ⟨m0, m0, m0 :: ms⟩ true) := by
  have hf : ∀ l : List Mnt, (l.map some).filterMap id = l := by
    intro l; induction l with
    | nil => rfl
    | cons m l ih => simp [ih]
  refine ⟨rfl, fun h => ?_, fun h => ?_⟩
  · obtain ⟨m, hm, hne⟩ := h
    show (if _ then _ else _) = _
    rw [if_neg]
    intro hall
    rw [List.all_eq_true] at hall
    have := hall (some m) (List.mem_map.2 ⟨m, by simp [hm], rfl⟩)
    exact hne (by simpa [equivalent] using this)
  · show (if _ then _ else _) = _
    rw [if_pos]
    · rw [hf (m0 :: ms)]
    · rw [List.all_eq_true]
      intro o ho
      obtain ⟨m, hm, rfl⟩ := List.mem_map.1 ho
      rcases List.mem_cons.1 hm with rfl | hm
      · simp [equivalent]
      · simpa [equivalent] using h m hm

/-- C59, defect: a list whose first pointer is null is undefined behaviour, whereas a null pointer further on is refused. -/
theorem C59_null_first (l : List (Option Mnt)) (m : Mnt) : Red.make (none :: l) = ub ∧ Red.make [some m, none] = exc .runtimeError := by
  refine ⟨rfl, ?_⟩
  show (if _ then _ else _) = _
  rw [if_neg (by simp)]

/-- C30: `is_done_all` is sticky: once it has answered yes it goes on answering yes until `reset_all`. -/
theorem C30_sticky (s s1 s2 : Reds) (f1 n1 f2 n2 : Bool) (b2 : Bool) (h1 : s.isDoneAll f1 n1 = ok (s1, true))
    (h2 : s1.isDoneAll f2 n2 = ok (s2, b2)) : b2 = true ∧ s1.resetAll.stop = false := by
  refine ⟨?_, rfl⟩
  have key : ∀ (s s' : Reds) (f n b : Bool), s.isDoneAll f n = ok (s', b) → s'.stop = b ∧ (s.stop = true → b = true) := by
    intro s s' f n b h
    unfold Reds.isDoneAll at h
    obtain ⟨rs, h1, h2⟩ : ∃ rs, (if n then mapExec (fun r => Red.reduce r f) s.reds else ok s.reds) = ok rs ∧
        ok ((⟨rs, s.stop || rs.any fun r => r.self.isDone⟩ : Reds), s.stop || rs.any fun r => r.self.isDone) = ok (s', b) := by
      cases e : (if n then mapExec (fun r => Red.reduce r f) s.reds else ok s.reds) with
      | ok rs => rw [e, bind_ok] at h; exact ⟨rs, rfl, h⟩
      | exc x => rw [e, bind_exc] at h; cases h
      | ub => rw [e, bind_ub] at h; cases h
    have h3 := Exec.ok.inj h2
    have hb := congrArg Prod.snd h3
    have hs := congrArg Prod.fst h3
    simp only at hb hs
    rw [← hs, ← hb]
    exact ⟨rfl, fun h => by rw [h]; rfl⟩
  exact (key s1 s2 f2 n2 b2 h2).2 (key s s1 f1 n1 true h1).1

/-- The sum of all the monitors reaches a limit. -/
def Reached (a : Args) (logs : List (List Nat × List Nat)) : Prop :=
  (a.maxFe ≠ 0 ∧ a.maxFe ≤ (logs.flatMap (·.1)).countP (· ≠ 0)) ∨ (a.maxFra ≠ 0 ∧ a.maxFra ≤ (logs.flatMap (·.1)).length)

/-- C29: the condition of the simulation loop: when `is_done_all` reduces, it answers yes if and only if it already had, or
the monitors of one of the reductions reach together one of its limits. -/
theorem C29_loop (s : Reds) (fully : Bool) (W : List (Red × List (List Nat × List Nat))) (hW : s.reds = W.map (·.1))
    (h : ∀ w ∈ W, ShowAll w.1.mons w.2 ∧ w.1.coll.hist.scale = 1 ∧ w.1.self.hist.scale = 1 ∧ (w.2.flatMap (·.1)).length < 2 ^ 64) :
    ∃ s' b, s.isDoneAll fully true = ok (s', b) ∧ s'.stop = b ∧ (b = true ↔ s.stop = true ∨ ∃ w ∈ W, Reached w.1.self.args w.2) := by
  have key : ∀ W : List (Red × List (List Nat × List Nat)),
      (∀ w ∈ W, ShowAll w.1.mons w.2 ∧ w.1.coll.hist.scale = 1 ∧ w.1.self.hist.scale = 1 ∧ (w.2.flatMap (·.1)).length < 2 ^ 64) →
      ∃ rs, mapExec (fun r => Red.reduce r fully) (W.map (·.1)) = ok rs ∧
        ((rs.any fun r => r.self.isDone) = true ↔ ∃ w ∈ W, Reached w.1.self.args w.2) := by
    intro W
    induction W with
    | nil => intro _; exact ⟨[], rfl, by simp⟩
    | cons w W ih =>
      intro h
      obtain ⟨rs, e1, e2⟩ := ih fun w hw => h w (by simp [hw])
      obtain ⟨g1, g2, g3, g4⟩ := h w (by simp)
      obtain ⟨r', d1, -, d3, d4, -⟩ := C30_reduce w.1 fully w.2 g1 g2 g3
      refine ⟨r' :: rs, ?_, ?_⟩
      · show (Red.reduce w.1 fully >>= fun b => mapExec _ (W.map (·.1)) >>= fun t => ok (b :: t)) = _
        rw [d1, bind_ok, e1, bind_ok]
      · have hd : r'.self.isDone = true ↔ Reached w.1.self.args w.2 := by
          unfold Mnt.isDone Mnt.feLimit Mnt.frameLimit Reached
          rw [Bool.or_eq_true, decide_eq_true_iff, decide_eq_true_iff, d3, d4]
          unfold Attr.of
          simp only [BitVec.toNat_ofNat]
          rw [Nat.mod_eq_of_lt g4, Nat.mod_eq_of_lt (Nat.lt_of_le_of_lt (List.countP_le_length) g4)]
        rw [List.any_cons, Bool.or_eq_true, hd, e2]
        simp
  obtain ⟨rs, e1, e2⟩ := key W h
  refine ⟨⟨rs, s.stop || rs.any fun r => r.self.isDone⟩, s.stop || rs.any fun r => r.self.isDone, ?_, rfl, ?_⟩
  · unfold Reds.isDoneAll
    rw [if_pos rfl, hW, e1, bind_ok]
  · rw [Bool.or_eq_true, e2]

/-- Two monitors of one bit: one wrong frame out of two in the first, one out of one in the second. -/
example : ((Mnt.make ⟨1, 2, 0, false, 8, 4, 127⟩ >>= fun m => forEach [Op.hist true, .check [0] [1], .check [1] [1]] (fun o m => Mnt.op m o) m >>= fun a =>
      forEach [Op.hist true, .check [0] [3]] (fun o m => Mnt.op m o) m >>= fun b => Red.make [some a, some b]).toOption.map
    fun r => (r.self.vals, r.self.hist.hist, r.self.isDone)) = some (⟨3, 2, 2⟩, [(1, 2)], true) := by decide +kernel

/-! ## C57 -/

/-- Calls on a histogram. -/
inductive HOp where
  | add (v : Int)
  | addW (v : Int) (w : Nat)
  | merge (o : Hist) (vals : List Int)
  | reset

/-- The model of a call. -/
def HOp.run (h : Hist) : HOp → Option Hist
  | .add v => some (h.add v)
  | .addW v w => some (h.addW v w)
  | .merge o _ => h.merge o
  | .reset => some h.reset

/-- The values added since the last reset. -/
def HOp.log (l : List Int) : HOp → List Int
  | .add v => l ++ [v]
  | .addW v w => l ++ List.replicate w v
  | .merge _ vals => l ++ vals
  | .reset => []

/-- Runs a list of calls. -/
def HOp.runAll : Hist → List HOp → Option Hist
  | h, [] => some h
  | h, o :: os => (o.run h).bind fun h' => runAll h' os

/-- C57: after any sequence of `add_value`, weighted `add_value`, merges with histograms of the same precision and resets,
the histogram gives for every value the number of times it was added, the total number of values, and its keys are
ascending. -/
theorem C57_histogram (p : Nat) (os : List HOp) (h : Hist) (l : List Int) (H : h.Holds l) (hp : h.scale = 10 ^ p)
    (ho : ∀ o vals, HOp.merge o vals ∈ os → o.Holds vals ∧ o.scale = 10 ^ p) :
    ∃ h', HOp.runAll h os = some h' ∧ h'.Holds (os.foldl HOp.log l) ∧ h'.scale = 10 ^ p := by
  induction os generalizing h l with
  | nil => exact ⟨h, rfl, H, hp⟩
  | cons o os ih =>
    have hos : ∀ o vals, HOp.merge o vals ∈ os → o.Holds vals ∧ o.scale = 10 ^ p := fun o vals hm => ho o vals (by simp [hm])
    cases o with
    | add v => exact ih (h.add v) (l ++ [v]) (holds_add H v) hp hos
    | addW v w => exact ih (h.addW v w) (l ++ List.replicate w v) (holds_addW H v w) hp hos
    | merge o vals =>
      obtain ⟨h1, h2⟩ := ho o vals (by simp)
      obtain ⟨h', e1, e2, e3⟩ := holds_merge H h1 (hp.trans h2.symm)
      show ∃ h'', (h.merge o).bind _ = _ ∧ _
      rw [e1]
      exact ih h' (l ++ vals) e2 (e3.trans hp) hos
    | reset => exact ih h.reset [] (holds_reset H) hp hos

/-- C57: histograms of different precisions are not merged. -/
theorem C57_precision (h o : Hist) (hne : h.scale ≠ o.scale) : h.merge o = none ∧ h.assign o = none :=
  ⟨if_pos hne, if_pos hne⟩

example : (HOp.runAll (Hist.mk' 1) [.add 3, .add (-1), .addW 3 2]).map (fun h => (h.hist, h.nValues, h.count 3, h.count 0)) =
    some ([(-10, 1), (30, 3)], 4, 3, 0) := by decide +kernel

/-! ## C58 -/

/-- Calls on a callback list. -/
inductive COp (F : Type _) where
  | record (f : F)
  | unrecord (id : BitVec 32)
  | clear

/-- The model of a call. -/
def COp.run {F : Type _} (c : Callback F) : COp F → Callback F
  | .record f => (c.record f).1
  | .unrecord id => (c.unrecord id).1
  | .clear => []

theorem unrecord_filter {F : Type _} : ∀ (c : Callback F) (id : BitVec 32), (c.map (·.2)).Nodup →
    c.unrecord id = (c.filter (fun e => e.2 ≠ id), c.any fun e => e.2 = id)
  | [], _, _ => rfl
  | e :: c, id, h => by
    have h' := List.nodup_cons.1 (show (e.2 :: c.map (·.2)).Nodup from h)
    unfold Callback.unrecord
    by_cases he : e.2 = id
    · rw [if_pos he]
      have : c.filter (fun e => decide (e.2 ≠ id)) = c := by
        rw [List.filter_eq_self]
        intro x hx
        simp only [ne_eq, decide_not, Bool.not_eq_eq_eq_not, Bool.not_true, decide_eq_false_iff_not]
        intro hxe
        exact h'.1 (List.mem_map.2 ⟨x, hx, by rw [hxe, he]⟩)
      simp [he]
      simpa using this.symm
    · rw [if_neg he, unrecord_filter c id h'.2]
      simp [he]

/-- The identifiers are ascending. -/
def Asc {F : Type _} (c : Callback F) : Prop := c.Pairwise fun a b => a.2.toNat < b.2.toNat

theorem asc_nodup {F : Type _} {c : Callback F} (h : Asc c) : (c.map (·.2)).Nodup := by
  rw [List.nodup_iff_pairwise_ne, List.pairwise_map]
  exact List.Pairwise.imp (fun hab he => by rw [he] at hab; exact absurd hab (Nat.lt_irrefl _)) h

theorem asc_last {F : Type _} {c : Callback F} (h : Asc c) {e : F × BitVec 32} (hl : c.getLast? = some e) :
    ∀ x ∈ c, x.2.toNat ≤ e.2.toNat := by
  obtain ⟨p, rfl⟩ : ∃ p, c = p ++ [e] := by
    have hne : c ≠ [] := by rintro rfl; cases hl
    refine ⟨c.dropLast, ?_⟩
    rw [List.getLast?_eq_getLast_of_ne_nil hne] at hl
    rw [← Option.some.inj hl, List.dropLast_concat_getLast]
  intro x hx
  rcases List.mem_append.1 hx with hx | hx
  · exact Nat.le_of_lt ((List.pairwise_append.1 h).2.2 x hx e (by simp))
  · rw [List.mem_singleton.1 hx]

/-- C58: `record` adds the function at the end, under an identifier no other recorded function has (as long as the last
identifier is not `2^32 - 1`), and `unrecord` removes exactly the function recorded under the identifier, if any, and says
whether there was one; so `notify` calls, in the order of `record`, exactly the functions recorded and not removed. -/
theorem C58_callbacks {F : Type _} (c : Callback F) (h : Asc c) (f : F) (id : BitVec 32)
    (hlast : ∀ e, c.getLast? = some e → e.2.toNat + 1 < 2 ^ 32) :
    (Asc (c.record f).1 ∧ (c.record f).1.notify = c.notify ++ [f] ∧ (∀ e ∈ c, e.2 ≠ (c.record f).2) ∧
      (f, (c.record f).2) ∈ (c.record f).1) ∧
    (Asc (c.unrecord id).1 ∧ (c.unrecord id).1 = c.filter (fun e => e.2 ≠ id) ∧
      ((c.unrecord id).2 = true ↔ ∃ e ∈ c, e.2 = id)) := by
  constructor
  · unfold Callback.record
    have hid : ∀ e ∈ c, e.2.toNat < (match c.getLast? with | none => 0#32 | some e => e.2 + 1#32 : BitVec 32).toNat := by
      intro e he
      cases hl : c.getLast? with
      | none => rw [List.getLast?_eq_none_iff.1 hl] at he; cases he
      | some x =>
        have h1 := asc_last h hl e he
        have h2 := hlast x hl
        simp only [BitVec.toNat_add, BitVec.toNat_ofNat]
        omega
    refine ⟨?_, ?_, ?_, ?_⟩
    · refine List.pairwise_append.2 ⟨h, List.pairwise_singleton _ _, fun a ha b hb => ?_⟩
      rw [List.mem_singleton.1 hb]
      exact hid a ha
    · simp [Callback.notify]
    · intro e he heq
      have := hid e he
      simp only at heq
      rw [heq] at this
      exact absurd this (Nat.lt_irrefl _)
    · simp
  · rw [unrecord_filter c id (asc_nodup h)]
    refine ⟨List.Pairwise.filter _ h, rfl, ?_⟩
    simp only [List.any_eq_true, decide_eq_true_eq]

/-- C58, histories: after any sequence of fewer than `2^32` calls on a new list the identifiers are ascending and smaller than the number of calls, so that
`C58_callbacks` applies: a new function gets an identifier that no recorded function has, and removing with the identifier of a recorded function removes
this function and no other. -/
theorem C58_history {F : Type _} (ops : List (COp F)) (hl : ops.length < 2 ^ 32 - 1) :
    let c := ops.foldl COp.run ([] : Callback F)
    Asc c ∧ (∀ e ∈ c, e.2.toNat < ops.length) ∧
    (∀ f, (c.record f).1.notify = c.notify ++ [f] ∧ ∀ e ∈ c, e.2 ≠ (c.record f).2) ∧
    (∀ id, (c.unrecord id).1 = c.filter (fun e => e.2 ≠ id) ∧ ((c.unrecord id).2 = true ↔ ∃ e ∈ c, e.2 = id)) := by
  have inv : ∀ (ops : List (COp F)) (c : Callback F) (b : Nat), b + ops.length < 2 ^ 32 → Asc c → (∀ e ∈ c, e.2.toNat < b) →
      Asc (ops.foldl COp.run c) ∧ ∀ e ∈ ops.foldl COp.run c, e.2.toNat < b + ops.length := by
    intro ops
    induction ops with
    | nil => intro c b _ h1 h2; exact ⟨h1, h2⟩
    | cons o ops ih =>
      intro c b hb h1 h2
      rw [List.length_cons] at hb
      have hlast : ∀ e, c.getLast? = some e → e.2.toNat + 1 < 2 ^ 32 := by
        intro e he
        have := h2 e (List.mem_of_getLast? he)
        omega
      have key : Asc (COp.run c o) ∧ ∀ e ∈ COp.run c o, e.2.toNat < b + 1 := by
        cases o with
        | record f =>
          refine ⟨(C58_callbacks c h1 f 0#32 hlast).1.1, fun e he => ?_⟩
          change e ∈ (c.record f).1 at he
          unfold Callback.record at he
          rcases List.mem_append.1 he with he | he
          · have := h2 e he; omega
          · rw [List.mem_singleton.1 he]
            cases hg : c.getLast? with
            | none => simp
            | some x =>
              have h3 := h2 x (List.mem_of_getLast? hg)
              simp only [BitVec.toNat_add, BitVec.toNat_ofNat]
              omega
        | unrecord id =>
          have hk : c.filter (fun e => e.2 ≠ id) = (c.unrecord id).1 := by
            cases c with
            | nil => rfl
            | cons x c' => exact ((C58_callbacks _ h1 x.1 id hlast).2.2.1).symm
          refine ⟨?_, fun e he => ?_⟩
          · show Asc (c.unrecord id).1
            rw [← hk]
            exact h1.sublist List.filter_sublist
          · change e ∈ (c.unrecord id).1 at he
            rw [← hk] at he
            have := h2 e (List.mem_filter.1 he).1
            omega
        | clear => exact ⟨List.Pairwise.nil, fun e he => nomatch he⟩
      have := ih (COp.run c o) (b + 1) (by omega) key.1 key.2
      rw [List.foldl_cons, List.length_cons]
      exact ⟨this.1, fun e he => by have := this.2 e he; omega⟩
  intro c
  obtain ⟨p, q⟩ := inv ops [] 0 (by omega) List.Pairwise.nil (fun e he => nomatch he)
  rw [Nat.zero_add] at q
  have hlast : ∀ e, c.getLast? = some e → e.2.toNat + 1 < 2 ^ 32 := by
    intro e he
    have := q e (List.mem_of_getLast? he)
    omega
  refine ⟨p, q, fun f => ?_, fun id => ?_⟩
  · have := (C58_callbacks c p f 0#32 hlast).1
    exact ⟨this.2.1, this.2.2.1⟩
  · refine ⟨?_, ?_⟩
    · cases hc : c with
      | nil => rfl
      | cons x c' => rw [← hc]; exact (C58_callbacks c p x.1 id hlast).2.2.1
    · cases hc : c with
      | nil => simp [Callback.unrecord]
      | cons x c' => rw [← hc]; exact (C58_callbacks c p x.1 id hlast).2.2.2

/-- C58, identifiers are reused: the identifier of a removed function may be given to the next one, so that removing twice
removes another function. -/
theorem C59_stale_id {F : Type _} (f g : F) :
    Callback.unrecord (Callback.record (Callback.unrecord (Callback.record ([] : Callback F) f).1 0#32).1 g).1 0#32 = ([], true) := rfl

example : Asc ([("a", 3#32), ("b", 7#32)] : Callback String) := by
  unfold Asc
  decide

end Verif.Monitor
