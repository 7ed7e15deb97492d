import Verif.Spec.Bin
import Verif.Proof.ModemReal
import Verif.Proof.Distance

/-! # Loops and states of the modems with two points -/

namespace Verif.Bin
open Verif.Float Verif.Cstl Verif.Modem Exec

theorem each_eq {α : Type} {n : Nat} {f : α → Fl} {x : List α} {out : List Fl} (hx : x.length = n) (ho : out.length = n) : each n f x out = ok (x.map f) := by
  obtain ⟨o, e, h1, h2⟩ := Distance.mapLoop_sat (g := f) (x := x) (out := out) (s := 0) (n := n) (by omega) (by omega)
  have e' : each n f x out = ok o := by
    rw [← e]; unfold each; congr 1; funext i o; simp
  rw [e']
  congr 1
  apply List.ext_getElem?
  intro j
  rw [h2, List.getElem?_map]
  by_cases hj : j < n
  · rw [if_pos (by omega)]
  · rw [if_neg (by omega), List.getElem?_eq_none (by omega), List.getElem?_eq_none (by omega)]; rfl

theorem vec_eq {α : Type} {L n : Nat} {f g : α → Fl} {x : List α} {out : List Fl} (hx : x.length = n) (ho : out.length = n) (hf : ∀ a ∈ x, f a = g a) :
    vec L n f g x out = ok (x.map g) := by
  obtain ⟨o, e, h1, h2⟩ := Distance.vecMap_sat (g := f) (h := g) (x := x) (L := L) (size := n) (out := out) (by omega) (by omega)
  unfold vec
  rw [e]
  congr 1
  apply List.ext_getElem?
  intro j
  rw [h2, List.getElem?_map]
  have hle : n / L * L ≤ n := Nat.div_mul_le_self _ _
  by_cases hj : j < n
  · obtain ⟨a, ha⟩ : ∃ a, x[j]? = some a := ⟨x[j], List.getElem?_eq_getElem (by omega)⟩
    have hm : f a = g a := hf a (List.mem_of_getElem? ha)
    rw [ha]
    split
    · simp [hm]
    · simp [hj]
  · rw [if_neg (by omega), if_neg (by omega), List.getElem?_eq_none (by omega), List.getElem?_eq_none (by omega)]; rfl

theorem each2_eq {α β : Type} {n : Nat} {f : α → β → Fl} {x : List α} {y : List β} {out : List Fl} (hx : x.length = n) (hy : y.length = n) (ho : out.length = n) :
    each2 n f x y out = ok (List.zipWith f x y) := by
  have hz : (x.zip y).length = n := by rw [List.length_zip, hx, hy, Nat.min_self]
  have : each2 n f x y out = each n (fun p : α × β => f p.1 p.2) (x.zip y) out := by
    unfold each2 each
    apply forN_congr
    intro i s hi
    rw [rd_lt (by omega : i < x.length), rd_lt (by omega : i < y.length), rd_lt (by omega : i < (x.zip y).length)]
    simp [bind_ok]
  rw [this, each_eq hz ho, List.zip, List.map_zipWith]

theorem copy_eq {n : Nat} {y out : List Fl} (hy : y.length = n) (ho : out.length = n) : copyTo y 0 n out 0 = ok y := by
  obtain ⟨o, e, h1, h2⟩ := copyTo_sat (src := y) (so := 0) (n := n) (dst := out) (d := 0) (by omega) (by omega)
  rw [e]
  congr 1
  apply List.ext_getElem?
  intro j
  rw [h2]
  by_cases hj : j < n
  · simp [hj]
  · rw [if_neg (by omega), List.getElem?_eq_none (by omega), List.getElem?_eq_none (by omega)]

theorem demod_fac {g : Cfg} (hu : uses g.kind = false) (f f' : Fl) (h : Option (List Fl)) (y out : List Fl) : demod g f h y out = demod g f' h y out := by
  unfold demod demodulate demodulateWg
  cases hk : g.kind with
  | bpsk n => rw [hk] at hu; cases n <;> simp [uses] at hu <;> cases h <;> rfl
  | fast n t l => rw [hk] at hu; cases n <;> simp [uses] at hu <;> cases h <;> rfl
  | awgn n => rw [hk] at hu; cases n <;> simp [uses] at hu <;> cases h <;> rfl
  | bec => cases h <;> rfl
  | bsc => rw [hk] at hu; simp [uses] at hu

/-- The recorded factor is that of the recorded parameter. -/
def Inv (L : Lib) (g : Cfg) (st : St) : Prop := uses g.kind = true → st.last = fltMax ∨ st.fac = factor L g st.last

theorem refresh_fac {L : Lib} {g : Cfg} {st : St} (hi : Inv L g st) (hu : uses g.kind = true) (cp : Fl) :
    cp = fltMax ∨ (refresh L g st cp).fac = factor L g cp := by
  unfold refresh
  by_cases h : cp ≠ st.last ∨ cp = .nan
  · rw [if_pos ⟨h, hu⟩]; exact .inr rfl
  · rw [if_neg (fun hh => h hh.1)]
    push Not at h
    rcases hi hu with h1 | h1
    · exact .inl (h.1.trans h1)
    · exact .inr (by rw [h1, h.1])

theorem Reach.inv {L : Lib} {g : Cfg} {st : St} (h : Reach L g st) : Inv L g st := by
  induction h with
  | init => intro _; left; cases g.kind <;> rfl
  | modulate _ e ih =>
    obtain ⟨o, -, e2⟩ := bind_ok_inv e
    cases e2; exact ih
  | @demodulate st st' cp h y out o _ e ih =>
    obtain ⟨o', -, e2⟩ := bind_ok_inv e
    cases e2
    intro hu
    exact refresh_fac ih hu cp

/-- The result of a demodulation after any history. -/
theorem demod_step {L : Lib} {g : Cfg} {st : St} (hr : Reach L g st) {cp : Fl} (hc : cp ≠ fltMax) {h : Option (List Fl)} {y out o : List Fl}
    (e : demod g (factor L g cp) h y out = ok o) : ∃ st', step L g st (.demodulate cp h y) out = ok (st', o) ∧ Reach L g st' := by
  have e' : demod g (refresh L g st cp).fac h y out = ok o := by
    cases hu : uses g.kind
    · rw [demod_fac hu _ (factor L g cp), e]
    · rcases refresh_fac hr.inv hu cp with h1 | h1
      · exact absurd h1 hc
      · rw [h1, e]
  have e2 : step L g st (.demodulate cp h y) out = ok ({ refresh L g st cp with last := cp }, o) := by
    show (demod g (refresh L g st cp).fac h y out >>= fun o => ok _) = _
    rw [e', bind_ok]
  exact ⟨_, e2, .demodulate hr e2⟩

end Verif.Bin
