/-
  Bloom filters (C28).  `H` stands for the hash function applied to a key
  (`get_hash_pair`, src/internal_helper.h:524-534, src/bloomfilter.cc:24-29);
  nothing is assumed about it.
-/
import Verif.Codec.Bloom

namespace Jungle
open Bloom

variable (H : Bytes → Nat × Nat)

/-- **C28.**  A filter of any size above 0 with any number of hash functions,
after any history of additions, answers "possibly present" for every key added
(and every operation is defined). -/
theorem C28_added_key_is_found (size hashCount : Nat) (hs : 0 < size) (ks : List Bytes) :
    ∃ b, (create size hashCount).addAll (ks.map H) = some b ∧ ∀ k ∈ ks, b.check (H k) = some true := by
  obtain ⟨c1, _, c3, _⟩ := create_spec size hashCount
  obtain ⟨b, e, _, _, _, _, g, _⟩ := addAll_spec (ks.map H) _ ⟨c3, by omega⟩
  exact ⟨b, e, fun k hk => g _ (List.mem_map_of_mem hk)⟩

/-- **C28.**  Saving the table's filter (over no file, or over an earlier save of
the same filter), loading it back and adding more keys loses none of the keys.
The filter loaded is the filter saved. -/
theorem C28_save_load (size : Nat) (hs : 0 < size) (hs2 : size ≤ 2 ^ 32) (ks more : List Bytes) (old : Bytes)
    (hold : old = [] ∨ old.length = 8 + (size + 7) / 8) :
    ∃ b f b2, (create size 3).addAll (ks.map H) = some b ∧ b.save old = some f ∧
      load f = some b ∧ b.addAll (more.map H) = some b2 ∧ ∀ k ∈ ks ++ more, b2.check (H k) = some true := by
  obtain ⟨c1, c2, c3, c4⟩ := create_spec size 3
  obtain ⟨b, e, ok, hc, n, l, g, _⟩ := addAll_spec (ks.map H) _ ⟨c3, by omega⟩
  obtain ⟨f, hf, hl⟩ := load_save (b := b) (by omega) (by omega) (by omega) (by omega) (old := old) (by
    rcases hold with rfl | h
    · left; rfl
    · right; omega)
  obtain ⟨b2, e2, _, _, _, _, g2, k2⟩ := addAll_spec (more.map H) b ok
  refine ⟨b, f, b2, e, hf, hl, e2, fun k hk => ?_⟩
  rcases List.mem_append.1 hk with h | h
  · exact k2 _ (g _ (List.mem_map_of_mem h))
  · exact g2 _ (List.mem_map_of_mem h)

/-- A filter of size 0 cannot be used: adding a key divides by zero.  The log's
filter has this size when `maxEntriesInLogFile` is 0 (src/memtable.cc:254-256). -/
theorem C28_empty_filter_undefined (p : Nat × Nat) : (create 0 3).set p = none := rfl

example : ∃ b, (create 10 3).addAll [(5, 3), (77, 2)] = some b ∧ b.check (77, 2) = some true ∧
    b.check (4, 0) = some false := ⟨_, rfl, by decide, by decide⟩
example : 0 < 10 ∧ 10 ≤ 2 ^ 32 ∧ (([] : Bytes) = [] ∨ ([] : Bytes).length = 8 + (10 + 7) / 8) := by decide

end Jungle
