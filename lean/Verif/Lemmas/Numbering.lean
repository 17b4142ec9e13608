import Verif.Model.Whole
/-! # Command lines can be numbered -/
namespace Verif.Whole
open Verif.Cmdline (Arg)

/-- A byte is a digit, and so is the end of an argument. -/
def digits : List Arg → List Nat
  | [] => []
  | a :: as => a.map (fun b => b.toNat + 1) ++ 257 :: digits as

def number : List Nat → Nat
  | [] => 0
  | d :: ds => d + 258 * number ds

def unnumber : Nat → Nat → List Nat
  | 0, _ => []
  | fuel + 1, n => if n = 0 then [] else n % 258 :: unnumber fuel (n / 258)

/-- A byte is put before the first argument. -/
def before (d : Nat) : List Arg → List Arg
  | [] => [[UInt8.ofNat (d - 1)]]
  | a :: as => (UInt8.ofNat (d - 1) :: a) :: as

def undigits : List Nat → List Arg
  | [] => []
  | d :: ds => if d = 257 then [] :: undigits ds else before d (undigits ds)

theorem undigits_digits : ∀ as, undigits (digits as) = as
  | [] => rfl
  | a :: as => by
    have key : ∀ a : Arg, undigits (a.map (fun b => b.toNat + 1) ++ 257 :: digits as) = a :: as := by
      intro a
      induction a with
      | nil => show (if (257 : Nat) = 257 then _ else _) = _; rw [if_pos rfl, undigits_digits as]
      | cons b a ih =>
        show (if b.toNat + 1 = 257 then _ else before (b.toNat + 1) (undigits (a.map (fun b => b.toNat + 1) ++ 257 :: digits as))) = _
        have := b.toNat_lt
        rw [if_neg (by omega), ih]
        show (UInt8.ofNat (b.toNat + 1 - 1) :: a) :: as = _
        rw [Nat.add_sub_cancel, UInt8.ofNat_toNat]
    exact key a

theorem unnumber_number : ∀ (ds : List Nat) (fuel : Nat), (∀ d ∈ ds, 0 < d ∧ d < 258) → ds.length ≤ fuel → unnumber fuel (number ds) = ds
  | [], fuel, _, _ => by cases fuel <;> rfl
  | d :: ds, 0, _, h => absurd h (by simp)
  | d :: ds, fuel + 1, hd, h => by
    obtain ⟨h1, h2⟩ := hd d List.mem_cons_self
    have ih := unnumber_number ds fuel (fun x hx => hd x (List.mem_cons_of_mem _ hx)) (by simpa using h)
    show (if d + 258 * number ds = 0 then _ else (d + 258 * number ds) % 258 :: unnumber fuel ((d + 258 * number ds) / 258)) = _
    rw [if_neg (by omega), show (d + 258 * number ds) % 258 = d by omega, show (d + 258 * number ds) / 258 = number ds by omega, ih]

theorem length_number : ∀ (ds : List Nat), (∀ d ∈ ds, 0 < d) → ds.length ≤ number ds
  | [], _ => Nat.le_refl _
  | d :: ds, h => by
    have := h d List.mem_cons_self
    have := length_number ds fun x hx => h x (List.mem_cons_of_mem _ hx)
    show ds.length + 1 ≤ d + 258 * number ds
    omega

theorem digits_range : ∀ as, ∀ d ∈ digits as, 0 < d ∧ d < 258
  | [], d, h => by cases h
  | a :: as, d, h => by
    rcases List.mem_append.1 h with h | h
    · obtain ⟨b, _, rfl⟩ := List.mem_map.1 h
      have := b.toNat_lt
      omega
    · rcases List.mem_cons.1 h with h | h
      · omega
      · exact digits_range as d h

def numbering : Numbering where
  id := fun as => number (digits as)
  args := fun n => undigits (unnumber n n)
  inv := fun as => by
    rw [unnumber_number _ _ (digits_range as) (length_number _ fun d hd => (digits_range as d hd).1)]
    exact undigits_digits as

end Verif.Whole
