import Mathlib.Tactic.Ring
import Verif.Proof.Dumper
import Verif.Props.User

/-!
# C123–C124: recording frames and replaying them
-/

namespace Verif.Dumper
open Exec User

/-- A dumper just after its registrations. -/
inductive Registered : Dumper → Prop where
  | new (headers : Bool) : Registered { Dumper.new with headers }
  | register {D D' : Dumper} {null : Bool} {thr : Nat} {d : Data} : Registered D → D.register null thr d = ok D' → Registered D'

/-- Nothing is recorded after the registrations; null pointers, empty areas, empty extensions and areas without frames are refused. -/
theorem C123_registered {D : Dumper} (h : Registered D) :
    D.buffer = D.data.map (fun _ => []) ∧ ∀ d ∈ D.data, 0 < d.size ∧ d.ext ≠ "" ∧ 0 < d.nFrames := by
  induction h with
  | new headers => exact ⟨rfl, fun d hd => by cases hd⟩
  | @register D D' null thr d hD e ih =>
    unfold Dumper.register at e
    by_cases h1 : null = true
    · rw [if_pos h1] at e; cases e
    by_cases h2 : d.size = 0
    · rw [if_neg h1, if_pos h2] at e; cases e
    by_cases h3 : d.ext = ""
    · rw [if_neg h1, if_neg h2, if_pos h3] at e; cases e
    by_cases h4 : d.nFrames = 0
    · rw [if_neg h1, if_neg h2, if_neg h3, if_pos h4] at e; cases e
    rw [if_neg h1, if_neg h2, if_neg h3, if_neg h4] at e
    injection e with e
    subst e
    refine ⟨by simp [ih.1], fun x hx => ?_⟩
    rcases List.mem_append.1 hx with hx | hx
    · exact ih.2 x hx
    · rw [List.mem_singleton.1 hx]
      exact ⟨by omega, h3, by omega⟩

/-- After the registrations, whatever the calls, the buffer of each area contains exactly the frames to be kept. -/
theorem C123_recorded {D : Dumper} (hD : Registered D) (hs : ∀ d ∈ D.data, d.size * d.sizeof < 2 ^ 32) {ops : List Op}
    (hf : ∀ o ∈ ops, o.Fits D.data) :
    ∃ B, D.run ops = ok { D with buffer := B } ∧ B.length = D.data.length ∧
      ∀ (i : Nat) (d : Data), D.data[i]? = some d → B[i]? = some (kept D.thr i d.nFrames (d.size * d.sizeof) ops) := by
  have hb := (C123_registered hD).1
  obtain ⟨B, e, h1, h2⟩ := run_sat ops hf hs (by rw [hb, List.length_map])
  exact ⟨B, e, h1, fun i d hi => h2 i d [] hi (by rw [hb, List.getElem?_map, hi]; rfl)⟩

theorem contents_eq {d : Data} {rows : List (List Nat)} (hl : ∀ b ∈ rows, b.length = d.size * d.sizeof) (hn : rows.length < 2 ^ 32) :
    contents true d rows = ok (fileOf d rows) := by
  unfold contents fileOf
  rw [Nat.mod_eq_of_lt hn]
  cases hb : d.bin with
  | true => simp [List.flatMap_cons]
  | false => simp [textBody_ok rows hl]

theorem zip_map_ext {data : List Data} {B : List (List (List Nat))} (h : B.length = data.length) :
    ((data.zip B).map fun x => x.1.ext) = data.map Data.ext := by
  rw [show (fun x : Data × List (List Nat) => x.1.ext) = Data.ext ∘ Prod.fst from rfl, ← List.map_map, List.map_fst_zip (by omega)]

theorem dump_files {data : List Data} {B : List (List (List Nat))} (hB : B.length = data.length) (hn : (data.map Data.ext).Nodup)
    (h : ∀ (i : Nat) (d : Data) (bs : List (List Nat)), data[i]? = some d → B[i]? = some bs →
      (∀ b ∈ bs, b.length = d.size * d.sizeof) ∧ bs.length < 2 ^ 32) (canOpen : String → Bool) (base : String) (fs : Files) :
    ∃ fs', dumpAll true canOpen base (data.zip B) fs = ok fs' ∧
      (∀ (i : Nat) (d : Data) (bs : List (List Nat)), data[i]? = some d → B[i]? = some bs → canOpen (base ++ "." ++ d.ext) = true →
        fs' (base ++ "." ++ d.ext) = some (fileOf d bs)) ∧
      ∀ p, (∀ d ∈ data, p ≠ base ++ "." ++ d.ext) → fs' p = fs p := by
  have mem : ∀ x ∈ data.zip B, ∃ i : Nat, data[i]? = some x.1 ∧ B[i]? = some x.2 := by
    intro x hx
    obtain ⟨i, hi⟩ := List.getElem?_of_mem hx
    rw [List.getElem?_zip_eq_some] at hi
    exact ⟨i, hi⟩
  obtain ⟨fs', e, h1, h2⟩ := dumpAll_sat (headers := true) (canOpen := canOpen) (base := base) (data.zip B) fs (fun x hx => by
      obtain ⟨i, hi, hb⟩ := mem x hx
      obtain ⟨g1, g2⟩ := h i x.1 x.2 hi hb
      exact ⟨_, contents_eq g1 g2⟩) (by rw [zip_map_ext hB]; exact hn)
  refine ⟨fs', e, fun i d bs hi hb ho => ?_, fun p hp => h2 p fun x hx => hp x.1 (List.of_mem_zip hx).1⟩
  obtain ⟨g1, g2⟩ := h i d bs hi hb
  exact h1 (d, bs) (List.mem_of_getElem? (List.getElem?_zip_eq_some.2 ⟨hi, hb⟩)) ho _ (contents_eq g1 g2)

/-- After any calls, `dump` writes in the file of each area the frames to be kept, and changes no other file. -/
theorem C123_files {D : Dumper} (hD : Registered D) (hh : D.headers = true) (hs : ∀ d ∈ D.data, d.size * d.sizeof < 2 ^ 32)
    (hn : (D.data.map Data.ext).Nodup) {ops : List Op} (hf : ∀ o ∈ ops, o.Fits D.data)
    (hk : ∀ (i : Nat) (d : Data), D.data[i]? = some d → (kept D.thr i d.nFrames (d.size * d.sizeof) ops).length < 2 ^ 32)
    (canOpen : String → Bool) {base : String} (hb : base ≠ "") (fs : Files) :
    ∃ D' fs', D.run ops = ok D' ∧ D'.dump canOpen base fs = ok fs' ∧
      (∀ (i : Nat) (d : Data), D.data[i]? = some d → canOpen (base ++ "." ++ d.ext) = true →
        fs' (base ++ "." ++ d.ext) = some (fileOf d (kept D.thr i d.nFrames (d.size * d.sizeof) ops))) ∧
      ∀ p, (∀ d ∈ D.data, p ≠ base ++ "." ++ d.ext) → fs' p = fs p := by
  obtain ⟨B, e, h1, h2⟩ := C123_recorded hD hs hf
  obtain ⟨fs', e', h3, h4⟩ := dump_files h1 hn (fun i d bs hi hbs => by
    rw [h2 i d hi] at hbs
    injection hbs with hbs
    subst hbs
    exact ⟨kept_length hi ops hf [] (fun b hb => by cases hb), hk i d hi⟩) canOpen base fs
  refine ⟨_, fs', e, ?_, fun i d hi ho => h3 i d _ hi (h2 i d hi) ho, h4⟩
  unfold Dumper.dump
  rw [if_neg hb]
  show dumpAll D.headers canOpen base (D.data.zip B) fs = _
  rw [hh]
  exact e'

/-- The dump of several dumpers registered in the same way contains the frames kept by each of them, one dumper after the other. -/
theorem C123_reduction {D : Dumper} (hD : Registered D) (hs : ∀ d ∈ D.data, d.size * d.sizeof < 2 ^ 32)
    (hn : (D.data.map Data.ext).Nodup) {opss : List (List Op)} (h0 : opss ≠ []) (hf : ∀ ops ∈ opss, ∀ o ∈ ops, o.Fits D.data)
    (hk : ∀ (i : Nat) (d : Data), D.data[i]? = some d →
      (opss.flatMap fun ops => kept D.thr i d.nFrames (d.size * d.sizeof) ops).length < 2 ^ 32)
    (canOpen : String → Bool) {base : String} (hb : base ≠ "") (fs : Files) :
    ∃ ds fs', opss.map D.run = ds.map ok ∧ redDump true ds canOpen base fs = ok fs' ∧
      (∀ (i : Nat) (d : Data), D.data[i]? = some d → canOpen (base ++ "." ++ d.ext) = true →
        fs' (base ++ "." ++ d.ext) = some (fileOf d (opss.flatMap fun ops => kept D.thr i d.nFrames (d.size * d.sizeof) ops))) ∧
      ∀ p, (∀ d ∈ D.data, p ≠ base ++ "." ++ d.ext) → fs' p = fs p := by
  have key : ∃ ds : List Dumper, opss.map D.run = ds.map ok ∧ (∀ e ∈ ds, e.data = D.data ∧ e.buffer.length = D.data.length) ∧
      ∀ (i : Nat) (d : Data), D.data[i]? = some d →
        gather ds i = opss.flatMap fun ops => kept D.thr i d.nFrames (d.size * d.sizeof) ops := by
    clear hk h0
    induction opss with
    | nil => exact ⟨[], rfl, fun e he => (by cases he), fun i d _ => rfl⟩
    | cons ops opss ih =>
      obtain ⟨ds, g1, g2, g3⟩ := ih fun ops ho => hf ops (List.mem_cons_of_mem _ ho)
      obtain ⟨B, e, h1, h2⟩ := C123_recorded hD hs (hf ops List.mem_cons_self)
      refine ⟨{ D with buffer := B } :: ds, by rw [List.map_cons, List.map_cons, e, g1], fun x hx => ?_, fun i d hi => ?_⟩
      · rcases List.mem_cons.1 hx with rfl | hx
        · exact ⟨rfl, h1⟩
        · exact g2 x hx
      · have := g3 i d hi
        unfold gather at this ⊢
        rw [List.flatMap_cons, List.flatMap_cons, this, List.getD_eq_getElem?_getD]
        show (B[i]?.getD [] ++ _) = _
        rw [h2 i d hi]
        rfl
  obtain ⟨ds, g1, g2, g3⟩ := key
  have hne : ds ≠ [] := by
    rintro rfl
    simp at g1
    exact h0 g1
  obtain ⟨x, xs, rfl⟩ := List.exists_cons_of_ne_nil hne
  have hx := g2 x List.mem_cons_self
  have hB : ((List.range x.data.length).map (gather (x :: xs))).length = D.data.length := by simp [hx.1]
  have hg : ∀ (i : Nat) (d : Data), D.data[i]? = some d → ((List.range x.data.length).map (gather (x :: xs)))[i]? =
      some (opss.flatMap fun ops => kept D.thr i d.nFrames (d.size * d.sizeof) ops) := fun i d hi => by
    rw [List.getElem?_map, List.getElem?_range (by rw [hx.1]; exact (List.getElem?_eq_some_iff.1 hi).1), Option.map_some, g3 i d hi]
  obtain ⟨fs', e', h3, h4⟩ := dump_files hB hn (fun i d bs hi hbs => by
    rw [hg i d hi] at hbs
    injection hbs with hbs
    subst hbs
    refine ⟨fun b hb => ?_, hk i d hi⟩
    obtain ⟨ops, ho, hb⟩ := List.mem_flatMap.1 hb
    exact kept_length hi ops (hf ops ho) [] (fun b hb => by cases hb) b hb) canOpen base fs
  refine ⟨x :: xs, fs', g1, ?_, fun i d hi ho => h3 i d _ hi (hg i d hi) ho, h4⟩
  have hc : redChecks (x :: xs) = ok () := by
    simp only [redChecks]
    rw [if_neg (by rintro ⟨e, he, hne⟩; exact hne (by rw [(g2 e (List.mem_cons_of_mem _ he)).2, hx.2])),
      if_neg (by rintro ⟨e, he, hne⟩; exact hne (by rw [(g2 e (List.mem_cons_of_mem _ he)).1, hx.1]))]
  unfold redDump
  rw [hc, bind_ok, if_neg hb]
  show dumpAll true canOpen base (x.data.zip _) fs = _
  rw [hx.1] at e' ⊢
  exact e'

/-- A text file without additional numbers is a file of messages: the user source generates the frames it contains. -/
theorem C123_source {d : Data} (hb : d.bin = false) (hh : d.head = []) (hs : 0 < d.size) {rows : List (List Nat)}
    (h0 : 0 < rows.length) (start : Nat) :
    ∃ l s, fileOf d rows = .text l ∧ Frames.source d.size (some ⟨l.map Tok.num, false⟩) start = ok s ∧
      ∀ Us : List (List Nat), (∀ U ∈ Us, U.length = d.size) →
        ∃ s' outs, s.run Us = ok (s', outs) ∧ outs.length = Us.length ∧
          ∀ t, t < Us.length → outs[t]? = (cyclic (rows.map (values d)) start t).map (List.map toBit) := by
  obtain ⟨s, e, h⟩ := C113_source d.size (rows.map (values d)) [] start hs (by simpa using h0) (by simp [values])
  refine ⟨_, s, by unfold fileOf; rw [if_neg (by simp [hb])], ?_, h⟩
  rw [← e]
  simp [text, hh]

/-- A text file with the number of information bits is a file of codewords: the user encoder generates the frames it contains. -/
theorem C123_encoder {β : Type} (cast : Int → β) {d : Data} {K : Nat} (hb : d.bin = false) (hh : d.head = [K]) (hK : 0 < K)
    (hs : K ≤ d.size) {rows : List (List Nat)} (h0 : 0 < rows.length) (start : Nat) :
    ∃ l s, fileOf d rows = .text l ∧
      encoder cast K d.size (some (⟨l.map Tok.num, false⟩, [.words [], .words []])) start = ok (s, List.range K) ∧
      ∀ Xs : List (List β), (∀ X ∈ Xs, X.length = d.size) →
        ∃ s' outs, s.run Xs = ok (s', outs) ∧ outs.length = Xs.length ∧
          ∀ t, t < Xs.length → outs[t]? = (cyclic (rows.map (values d)) start t).map (List.map cast) := by
  obtain ⟨s, e, h⟩ := C113_encoder cast K d.size (rows.map (values d)) start [.words [], .words []] (List.range K) hK hs
    (by simpa using h0) (by simp [values]) (Or.inl ⟨by simp, rfl⟩)
  refine ⟨_, s, by unfold fileOf; rw [if_neg (by simp [hb])], ?_, h⟩
  rw [← e]
  simp [text, hh]

/-- A binary file of less than 2^16 frames is a file of noise: it is never taken for a text file, and the user channel has the frames it
contains, in the type that was recorded. -/
theorem C123_channel {R : Type} (zero : R) (sR : Nat) (decR decD decF : List Nat → R) {d : Data} (hb : d.bin = true) (hh : d.head = [])
    (hs : 0 < d.size) (hs' : d.size < 2 ^ 31) (hc : d.sizeof = sR ∨ d.sizeof = 8 ∨ d.sizeof = 4) (hc0 : 0 < d.sizeof)
    {rows : List (List Nat)} (hl : ∀ b ∈ rows, b.length = d.size * d.sizeof) (h0 : 0 < rows.length) (h16 : rows.length < 2 ^ 16)
    (ht : rows.length * (d.size * d.sizeof) < 2 ^ 32) (frames : Nat) (vals : List (Tok R)) (eol users : Bool) :
    ∃ l, fileOf d rows = .bin l ∧ Chan.mk? zero d.size frames (some (asText l vals eol)) (readBinary zero sR decR decD decF d.size l) users =
      ok ⟨d.size, frames, rows.map (reals (if d.sizeof = sR then decR else if d.sizeof = 8 then decD else decF) d.size d.sizeof), 0, users,
        List.replicate (d.size * frames) zero⟩ := by
  refine ⟨_, by unfold fileOf; rw [if_pos hb], ?_⟩
  rw [hh, List.flatMap_nil, List.nil_append, readBinary_eq zero sR decR decD decF hl hs hs' h0 ht hc hc0]
  unfold Chan.mk?
  rw [if_neg (by omega)]
  have : readText zero ((d.size : Int).toNat) (asText (leBytes 4 rows.length ++ (leBytes 4 d.size ++ rows.flatten)) vals eol) =
      exc .runtimeError := by
    unfold readText
    rw [asText_size h16]
    simp
  rw [Int.toNat_natCast] at this
  simp only [Int.toNat_natCast, this, bind_ok]

/-- The bytes of an integer are printed as this integer. -/
theorem C123_int (k : Nat) (x : Int) :
    (0 ≤ x → x < 256 ^ k → leInt false (leBytes k x.toNat) = x) ∧
    (0 < k → -(2 ^ (8 * k - 1)) ≤ x → x < 2 ^ (8 * k - 1) → leInt true (leBytes k (x % 2 ^ (8 * k)).toNat) = x) := by
  have e256 : (256 : Nat) ^ k = 2 ^ (8 * k) := by rw [Nat.pow_mul]
  refine ⟨fun h1 h2 => ?_, fun hk h1 h2 => ?_⟩
  · have h3 : x.toNat < 256 ^ k := by
      have : ((256 : Int) ^ k) = ((256 ^ k : Nat) : Int) := by rw [Nat.cast_pow]; rfl
      rw [this] at h2
      omega
    unfold leInt
    rw [leNat_leBytes _ _ h3, if_neg (by simp)]
    omega
  · have e2 : (2 : Int) ^ (8 * k) = 2 * 2 ^ (8 * k - 1) := by
      rw [← pow_succ']
      congr 1
      omega
    have e3 : ((2 : Nat) ^ (8 * k) : Nat) = 2 * 2 ^ (8 * k - 1) := by
      rw [← Nat.pow_succ']
      congr 1
      omega
    have ec : ((2 ^ (8 * k - 1) : Nat) : Int) = 2 ^ (8 * k - 1) := by rw [Nat.cast_pow]; rfl
    unfold leInt
    rw [leBytes_length]
    rw [← ec] at h1 h2 e2
    generalize (2 : Nat) ^ (8 * k - 1) = P at h1 h2 e2 e3
    by_cases hx : 0 ≤ x
    · have : x % 2 ^ (8 * k) = x := by rw [e2]; exact Int.emod_eq_of_lt hx (by omega)
      rw [this, leNat_leBytes _ _ (by rw [e256, e3]; omega), if_neg (by rw [e3]; omega)]
      omega
    · have : x % 2 ^ (8 * k) = x + 2 * P := by
        rw [e2]
        rw [← Int.add_emod_right]
        exact Int.emod_eq_of_lt (by omega) (by omega)
      rw [this, leNat_leBytes _ _ (by rw [e256, e3]; omega), if_pos ⟨rfl, by rw [e3]; omega⟩, e2]
      omega

/-- A recording of two areas, with a clear and a frame without enough errors. -/
def exData : List Data := [⟨2, 1, true, "src", false, [], 2⟩, ⟨3, 2, true, "enc", false, [2], 2⟩]

def exOps : List Op :=
  [.add 5 0 (fun _ => [7, 7, 7, 7, 7, 7, 7, 7, 7, 7, 7, 7]), .clear,
   .add 1 1 (fun i => if i = 0 then [0, 0, 1, 0] else [0, 0, 0, 0, 0, 0, 1, 0, 0, 0, 255, 255]),
   .add 0 0 (fun _ => [9, 9, 9, 9, 9, 9, 9, 9, 9, 9, 9, 9]),
   .add 2 0 (fun i => if i = 0 then [0, 1, 3, 3] else [2, 0, 3, 0, 4, 0, 0, 0, 0, 0, 0, 0])]

example : (Dumper.new.register false 0 exData[0] >>= fun D => D.register false 1 exData[1]) = ok ⟨1, exData, [[], []], true⟩ := by decide +kernel

example : ∀ o ∈ exOps, o.Fits exData := by
  intro o ho
  simp only [exOps, List.mem_cons, List.not_mem_nil, or_false] at ho
  rcases ho with rfl | rfl | rfl | rfl | rfl
  all_goals
    first
    | exact trivial
    | refine ⟨by omega, fun i d hi => ?_⟩
      match i with
      | 0 => injection hi with hi; subst hi; simp
      | 1 => injection hi with hi; subst hi; simp
      | n + 2 => simp [exData] at hi

example : ((⟨1, exData, [[], []], true⟩ : Dumper).run exOps >>= fun D => D.dump (fun _ => true) "x" (fun _ => none) >>= fun fs =>
    ok (fs "x.src", fs "x.enc", fs "x.chn")) =
    ok (some (.text [2, 2, 1, 0, 0, 1]), some (.text [2, 3, 2, 1, 0, -1, 2, 3, 4]), none) := by decide +kernel

example : (do
    let a ← (⟨1, exData, [[], []], true⟩ : Dumper).run exOps
    let b ← (⟨1, exData, [[], []], true⟩ : Dumper).run [.add 1 0 (fun _ => [1, 1, 0, 0, 0, 0, 0, 0, 0, 0, 0, 0])]
    let fs ← redDump true [a, b] (fun _ => true) "x" (fun _ => none)
    ok (fs "x.src", fs "x.enc")) =
    ok (some (.text [3, 2, 1, 0, 0, 1, 1, 1]), some (.text [3, 3, 2, 1, 0, -1, 2, 3, 4, 257, 0, 0])) := by decide +kernel

/-- Two frames of two values of four bytes, read with a type of four bytes (`leNat` stands for the decoding). -/
example : (fileOf ⟨2, 4, true, "chn", true, [], 1⟩ [[1, 0, 0, 0, 2, 0, 0, 0], [3, 0, 0, 0, 4, 1, 0, 0]] =
      .bin [2, 0, 0, 0, 2, 0, 0, 0, 1, 0, 0, 0, 2, 0, 0, 0, 3, 0, 0, 0, 4, 1, 0, 0]) ∧
    readBinary 0 4 leNat leNat leNat 2 [2, 0, 0, 0, 2, 0, 0, 0, 1, 0, 0, 0, 2, 0, 0, 0, 3, 0, 0, 0, 4, 1, 0, 0] =
      ok [[1, 2], [3, 260]] := by decide +kernel

/-! ## Defects -/

/-- The threshold given with an area is that of all the areas: the last one that was given is used. -/
theorem C124_threshold {D D1 D2 : Dumper} {t1 t2 : Nat} {d1 d2 : Data} (h1 : D.register false t1 d1 = ok D1)
    (h2 : D1.register false t2 d2 = ok D2) : D2.thr = t2 := by
  unfold Dumper.register at h2
  rw [if_neg (by simp)] at h2
  by_cases a : d2.size = 0
  · rw [if_pos a] at h2; cases h2
  by_cases b : d2.ext = ""
  · rw [if_neg a, if_pos b] at h2; cases h2
  by_cases c : d2.nFrames = 0
  · rw [if_neg a, if_neg b, if_pos c] at h2; cases h2
  rw [if_neg a, if_neg b, if_neg c] at h2
  injection h2 with h2
  rw [← h2]

example : (Dumper.new.register false 3 exData[0] >>= fun D => D.register false 0 exData[1] >>= fun D =>
    D.add 0 0 (fun _ => [1, 0, 0, 0, 0, 0, 0, 0, 0, 0, 0, 0]) >>= fun D => ok D.buffer) =
    ok [[[1, 0]], [[1, 0, 0, 0, 0, 0]]] := by decide +kernel

/-- When the areas do not have the same number of frames, the files no longer correspond: the frame 1 of the messages is recorded,
that of the codewords is not. -/
theorem C124_alignment : ((⟨0, [⟨2, 1, true, "src", false, [], 2⟩, ⟨3, 1, true, "enc", false, [2], 1⟩], [[], []], true⟩ : Dumper).run
    [.add 1 1 (fun _ => [0, 0, 1, 1]), .add 1 0 (fun _ => [0, 1, 1, 1])] >>= fun D => ok D.buffer) =
    ok [[[1, 1], [0, 1]], [[0, 1, 1]]] := by decide +kernel

/-- Two areas of the same extension are accepted; only the last one is in the file. -/
theorem C124_extension : (Dumper.new.register false 0 ⟨2, 1, true, "dump", false, [], 1⟩ >>= fun D =>
    D.register false 0 ⟨2, 1, true, "dump", false, [], 1⟩ >>= fun D =>
    D.add 0 0 (fun i => if i = 0 then [1, 1] else [0, 1]) >>= fun D => D.dump (fun _ => true) "x" (fun _ => none) >>= fun fs =>
    ok (fs "x.dump")) = ok (some (.text [1, 2, 0, 1])) := by decide +kernel

/-- When the files cannot be opened, `dump` ends normally and writes nothing, whatever the areas are. -/
theorem C124_not_opened {D : Dumper} (h : ∀ x ∈ D.data.zip D.buffer, ∃ c, contents D.headers x.1 x.2 = ok c) {base : String}
    (hb : base ≠ "") (fs : Files) : D.dump (fun _ => false) base fs = ok fs := by
  unfold Dumper.dump
  rw [if_neg hb]
  generalize D.data.zip D.buffer = l at h
  induction l with
  | nil => rfl
  | cons x l ih =>
    obtain ⟨d, bs⟩ := x
    obtain ⟨c, hc⟩ := h (d, bs) List.mem_cons_self
    rw [dumpAll, hc, bind_ok]
    simp only [Bool.false_eq_true, and_false, if_false]
    exact ih fun x hx => h x (List.mem_cons_of_mem _ hx)

/-- The size in bytes of a large area wraps around: nothing is recorded, the text dump then reads past the end of the buffer. -/
theorem C124_large {d : Data} (h1 : d.size = 2 ^ 30) (h2 : d.sizeof = 4) (hb : d.bin = false) (hf : 0 < d.nFrames) (mem : Nat → List Nat)
    (fs : Files) :
    (Dumper.add ⟨0, [d], [[]], true⟩ 0 0 mem) = ok ⟨0, [d], [[[]]], true⟩ ∧
      Dumper.dump ⟨0, [d], [[[]]], true⟩ (fun _ => true) "x" fs = ub := by
  have hB : d.bytes = 0 := by rw [Data.bytes, h1, h2]; decide
  constructor
  · unfold Dumper.add
    rw [if_neg (by simp)]
    show ((rd [d] 0 >>= fun d => addOne 0 mem 0 [[]] d) >>= _) = _
    simp [rd, addOne, hf, hB, slice, wr]
  · unfold Dumper.dump
    rw [if_neg (by decide)]
    show (contents true d [[]] >>= _) = _
    have : contents true d [[]] = ub := by
      unfold contents
      simp [hb, textBody, textFrame, h1, h2]
    rw [this]
    rfl

/-- A binary file of noise whose header gives a product of sizes that wraps around to 0 makes the reader divide by 0, whatever the
expected size. -/
theorem C124_binary_header {R : Type} (zero : R) (sR : Nat) (decR decD decF : List Nat → R) (N : Nat) (body : List Nat) :
    readBinary zero sR decR decD decF N ([0, 0, 1, 0] ++ [0, 0, 1, 0] ++ body) = ub := by
  simp [readBinary, leNat, leInt, leBytes]

/-- A binary file of 3678257 frames of 8 values is taken for a text file: its header is the text `1 8`.  What follows is not a number and
the reading uses a variable that is not initialised. -/
theorem C124_binary_as_text {R : Type} (zero : R) (frames : Nat) (rest : List Nat) (r : List (Tok R)) (eol users : Bool)
    (binary : Exec (List (List R))) :
    Chan.mk? zero 8 frames (some (asText (leBytes 4 3678257 ++ rest) (.bad :: r) eol)) binary users = ub := by
  have e : asText (leBytes 4 3678257 ++ rest) (.bad :: r) eol = ⟨some 1, some 8, .bad :: r, eol⟩ := by
    simp [asText, leBytes, scanInt, isWs, isDigit]
  rw [e]
  have : readText zero 8 ⟨some 1, some 8, .bad :: r, eol⟩ = ub := by
    cases eol <;> simp [readText, u32, readNoiseRows, readNoiseRow, Strm.get]
  unfold Chan.mk?
  rw [if_neg (by omega)]
  simp only [show Int.toNat 8 = 8 from rfl, this]
  rfl

end Verif.Dumper
