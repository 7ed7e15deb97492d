import Verif.Model.Channel

/-! # Specification vocabulary for the channels -/

namespace Verif.Channel

variable {R : Type}

/-- Value `i` received when the values of several users, stored one after the other, are added. -/
def sumUsers (o : Ops R) (N frames : Nat) (X : List R) (i : Nat) : R :=
  (List.range frames).foldl (fun a g => o.add a (X.getD (g * N + i) o.zero)) o.zero

/-- Value `i` received through a complex gain: real parts at the even positions, imaginary parts at the odd ones. -/
def cplxOut (o : Ops R) (x h n : Nat → R) (i : Nat) : R :=
  if i % 2 = 0 then o.add (o.sub (o.mul (x i) (h i)) (o.mul (x (i + 1)) (h (i + 1)))) (n i)
  else o.add (o.add (o.mul (x i) (h (i - 1))) (o.mul (x (i - 1)) (h i))) (n i)

/-- The modulus of the complex number of index `i`. -/
def modulus (o : Ops R) (g : Nat → R) (i : Nat) : R := o.sqrt (o.add (o.mul (g (2 * i)) (g (2 * i))) (o.mul (g (2 * i + 1)) (g (2 * i + 1))))

/-- The gain of sample number `q` since the start, when each gain of the file is used for `occ` samples and the file is used cyclically. -/
def gainOf (o : Ops R) (stock : List R) (occ q : Nat) : R := stock.getD (q / occ % stock.length) o.zero

end Verif.Channel
