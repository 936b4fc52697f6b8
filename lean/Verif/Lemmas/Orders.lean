/-
For every number of participants there are orders in which all messages of an honest key generation arrive.
-/
import Verif.Spec.DkgHonest
import Verif.Spec.DkgRabinHonest
import Mathlib.Data.List.Nodup
import Mathlib.Data.List.Flatten
import Mathlib.Data.Finset.Range

namespace Kyber.Spec

/-- Deals, then responses. -/
def hOrder (n i : Nat) : List HMsg :=
  HMsg.deals :: ((List.range n).filter (· ≠ i)).map .deal ++
    (List.range n).flatMap (fun j => ((List.range n).filter (fun l => l ≠ i ∧ l ≠ j)).map (.resp j))

theorem nodup_deals {α : Type} (n i : Nat) (f : Nat → α) (hf : Function.Injective f) :
    (((List.range n).filter (· ≠ i)).map f).Nodup := (List.nodup_range.filter _).map hf

theorem nodup_resps {α : Type} (n i : Nat) (f : Nat → Nat → α) (hf : ∀ a b c d, f a b = f c d → a = c ∧ b = d) :
    ((List.range n).flatMap (fun j => ((List.range n).filter (fun l => l ≠ i ∧ l ≠ j)).map (f j))).Nodup := by
  rw [List.nodup_flatMap]
  refine ⟨fun j _ => (List.nodup_range.filter _).map fun a b h => (hf _ _ _ _ h).2, ?_⟩
  refine List.nodup_range.imp fun {a b} hab => ?_
  intro x hx hx'
  simp only [List.mem_map] at hx hx'
  obtain ⟨l, -, rfl⟩ := hx
  obtain ⟨l', -, h⟩ := hx'
  exact hab (hf _ _ _ _ h).1.symm

theorem mem_hOrder (n i : Nat) (m : HMsg) : m ∈ hOrder n i ↔ m.Wanted n i ∧ m ≠ .timeout := by
  unfold hOrder
  cases m <;> simp [HMsg.Wanted, and_assoc]

theorem hOrder_ok (n i : Nat) : Schedule n i (hOrder n i) ∧ Complete n i (hOrder n i) := by
  have hnd : (hOrder n i).Nodup := by
    unfold hOrder
    rw [List.cons_append, List.nodup_cons, List.nodup_append]
    refine ⟨by simp, nodup_deals n i _ fun a b h => HMsg.deal.inj h,
      nodup_resps n i _ fun a b c d h => HMsg.resp.inj h, ?_⟩
    intro a ha b hb
    simp only [List.mem_map, List.mem_flatMap] at ha hb
    obtain ⟨_, -, rfl⟩ := ha
    obtain ⟨_, -, _, -, rfl⟩ := hb
    exact HMsg.noConfusion
  exact ⟨⟨fun m hm => ((mem_hOrder n i m).1 hm).1, fun m _ => List.nodup_iff_count_le_one.1 hnd m⟩,
    fun m h1 h2 => (mem_hOrder n i m).2 ⟨h1, h2⟩⟩

/-- Deals, then responses, then commitments. -/
def rOrder (n i : Nat) : List RMsg :=
  (RMsg.deals :: ((List.range n).filter (· ≠ i)).map .deal) ++
    ((List.range n).flatMap (fun j => ((List.range n).filter (fun l => l ≠ i ∧ l ≠ j)).map (.resp j)) ++
      (RMsg.ownCommits :: ((List.range n).filter (· ≠ i)).map .commits))

theorem mem_rOrder (n i : Nat) (m : RMsg) : m ∈ rOrder n i ↔ m.Wanted n i ∧ m ≠ .timeout := by
  unfold rOrder
  cases m <;> simp [RMsg.Wanted, and_assoc]

/-- The part of `rOrder` a message belongs to. -/
def RMsg.part : RMsg → Nat
  | .deals => 0
  | .deal _ => 0
  | .resp _ _ => 1
  | _ => 2

theorem rOrder_sorted (n i : Nat) : (rOrder n i).Pairwise (fun a b => a.part ≤ b.part) := by
  have hall : ∀ (l : List RMsg) (k : Nat), (∀ m ∈ l, m.part = k) → l.Pairwise (fun a b => a.part ≤ b.part) := by
    intro l k h
    rw [List.pairwise_iff_forall_sublist]
    intro a b hab
    rw [h a (hab.subset (by simp)), h b (hab.subset (by simp))]
  have h0 : ∀ m ∈ RMsg.deals :: ((List.range n).filter (· ≠ i)).map .deal, m.part = 0 := by
    intro m hm
    simp only [List.mem_cons, List.mem_map] at hm
    rcases hm with rfl | ⟨_, -, rfl⟩ <;> rfl
  have h1 : ∀ m ∈ (List.range n).flatMap
      (fun j => ((List.range n).filter (fun l => l ≠ i ∧ l ≠ j)).map (RMsg.resp j)), m.part = 1 := by
    intro m hm
    simp only [List.mem_flatMap, List.mem_map] at hm
    obtain ⟨_, -, _, -, rfl⟩ := hm
    rfl
  have h2 : ∀ m ∈ RMsg.ownCommits :: ((List.range n).filter (· ≠ i)).map .commits, m.part = 2 := by
    intro m hm
    simp only [List.mem_cons, List.mem_map] at hm
    rcases hm with rfl | ⟨_, -, rfl⟩ <;> rfl
  unfold rOrder
  rw [List.pairwise_append, List.pairwise_append]
  refine ⟨hall _ 0 h0, ⟨hall _ 1 h1, hall _ 2 h2, fun a ha b hb => by rw [h1 a ha, h2 b hb]; omega⟩, ?_⟩
  intro a ha b hb
  rw [h0 a ha]
  exact Nat.zero_le _

theorem rOrder_nodup (n i : Nat) : (rOrder n i).Nodup := by
  unfold rOrder
  rw [List.nodup_append, List.nodup_append, List.nodup_cons, List.nodup_cons]
  refine ⟨⟨by simp, nodup_deals n i _ fun a b h => RMsg.deal.inj h⟩,
    ⟨nodup_resps n i _ fun a b c d h => RMsg.resp.inj h,
      ⟨by simp, nodup_deals n i _ fun a b h => RMsg.commits.inj h⟩, ?_⟩, ?_⟩
  · intro a ha b hb
    simp only [List.mem_map, List.mem_flatMap, List.mem_cons] at ha hb
    obtain ⟨_, -, _, -, rfl⟩ := ha
    rcases hb with rfl | ⟨_, -, rfl⟩ <;> exact RMsg.noConfusion
  · intro a ha b hb
    simp only [List.mem_map, List.mem_flatMap, List.mem_cons, List.mem_append] at ha hb
    rcases ha with rfl | ⟨_, -, rfl⟩ <;> rcases hb with ⟨_, -, _, -, rfl⟩ | rfl | ⟨_, -, rfl⟩ <;>
      exact RMsg.noConfusion

/-- The dealer a message received by `i` is about. -/
def RMsg.dealer (i : Nat) : RMsg → Nat
  | .deal j => j
  | .resp j _ => j
  | .commits j => j
  | _ => i

/-- The messages about the dealers in `A`. -/
def rOrderOn (n : Nat) (A : Finset Nat) (i : Nat) : List RMsg := (rOrder n i).filter fun m => m.dealer i ∈ A

theorem mem_rOrderOn (n : Nat) (A : Finset Nat) (i : Nat) (m : RMsg) :
    m ∈ rOrderOn n A i ↔ m.Wanted n i ∧ m ≠ .timeout ∧ m.dealer i ∈ A := by
  unfold rOrderOn
  rw [List.mem_filter, mem_rOrder, decide_eq_true_eq, and_assoc]

theorem rOrderOn_ok (n : Nat) (A : Finset Nat) (i : Nat) (hi : i < n) : RSchedule n i (rOrderOn n A i) := by
  refine ⟨fun m hm => ((mem_rOrderOn n A i m).1 hm).1,
    fun m _ => List.nodup_iff_count_le_one.1 ((rOrder_nodup n i).filter _) m, ?_⟩
  intro pre m post he m' hneed
  have hm := (mem_rOrderOn n A i m).1 (by rw [he]; simp)
  have key : m'.Wanted n i ∧ m' ≠ .timeout ∧ m'.part < m.part ∧ m'.dealer i = m.dealer i := by
    cases m with
    | deals => exact hneed.elim
    | deal j => exact hneed.elim
    | timeout => exact absurd rfl hm.2.1
    | resp j l =>
      obtain rfl : m' = RMsg.dealOf i j := hneed
      unfold RMsg.dealOf
      split
      · rename_i e; exact ⟨trivial, by simp, Nat.zero_lt_one, e.symm⟩
      · exact ⟨⟨hm.1.1, by assumption⟩, by simp, Nat.zero_lt_one, rfl⟩
    | ownCommits =>
      rcases hneed with rfl | ⟨l, h1, h2, rfl⟩
      · exact ⟨trivial, by simp, by decide, rfl⟩
      · exact ⟨⟨hi, h1, h2, h2⟩, by simp, Nat.lt_succ_self 1, rfl⟩
    | commits j =>
      rcases hneed with rfl | ⟨l, h1, h2, h3, rfl⟩
      · exact ⟨hm.1, by simp, Nat.zero_lt_two, rfl⟩
      · exact ⟨⟨hm.1.1, h1, h2, h3⟩, by simp, Nat.lt_succ_self 1, rfl⟩
  have hin : m' ∈ rOrderOn n A i :=
    (mem_rOrderOn n A i m').2 ⟨key.1, key.2.1, by rw [key.2.2.2]; exact hm.2.2⟩
  have hs : (rOrderOn n A i).Pairwise (fun a b => a.part ≤ b.part) := (rOrder_sorted n i).filter _
  rw [he] at hin hs
  rcases List.mem_append.1 hin with h | h
  · exact h
  · rcases List.mem_cons.1 h with rfl | h
    · exact absurd key.2.2.1 (lt_irrefl _)
    · have := (List.pairwise_cons.1 (List.pairwise_append.1 hs).2.1).1 m' h
      omega

theorem rOrder_ok (n i : Nat) (hi : i < n) : RSchedule n i (rOrder n i) ∧ RComplete n i (rOrder n i) := by
  have he : rOrderOn n (Finset.range n) i = rOrder n i := by
    unfold rOrderOn
    rw [List.filter_eq_self]
    intro m hm
    have hw := ((mem_rOrder n i m).1 hm).1
    rw [decide_eq_true_eq, Finset.mem_range]
    cases m <;> first | exact hi | exact hw.1
  refine ⟨?_, fun m h1 h2 => (mem_rOrder n i m).2 ⟨h1, h2⟩⟩
  have := rOrderOn_ok n (Finset.range n) i hi
  rwa [he] at this

end Kyber.Spec
