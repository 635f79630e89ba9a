import Verif.Model.MultiIndex
/-!
# The table of `algebra/multiindex_order_cache.py`, transcribed entry by entry
-/

namespace Verif.MI

/-- Entry `(2, 1)` (multiindex_order_cache.py:8). -/
def orderCache_2_1 : List (List Nat × Nat) := [
  ([0, 0], 0), ([1, 0], 1), ([0, 1], 2)]

/-- Entry `(2, 2)` (multiindex_order_cache.py:14). -/
def orderCache_2_2 : List (List Nat × Nat) := [
  ([0, 0], 0), ([1, 0], 1), ([2, 0], 2), ([0, 1], 3), ([1, 1], 4), ([0, 2], 5)]

/-- Entry `(2, 3)` (multiindex_order_cache.py:23). -/
def orderCache_2_3 : List (List Nat × Nat) := [
  ([0, 0], 0), ([1, 0], 1), ([2, 0], 2), ([3, 0], 3), ([0, 1], 4), ([1, 1], 5), ([2, 1], 6), ([0, 2], 7),
  ([1, 2], 8), ([0, 3], 9)]

/-- Entry `(2, 4)` (multiindex_order_cache.py:36). -/
def orderCache_2_4 : List (List Nat × Nat) := [
  ([0, 0], 0), ([1, 0], 1), ([2, 0], 2), ([3, 0], 3), ([4, 0], 4), ([0, 1], 5), ([1, 1], 6), ([2, 1], 7),
  ([3, 1], 8), ([0, 2], 9), ([1, 2], 10), ([2, 2], 11), ([0, 3], 12), ([1, 3], 13), ([0, 4], 14)]

/-- Entry `(2, 5)` (multiindex_order_cache.py:54). -/
def orderCache_2_5 : List (List Nat × Nat) := [
  ([0, 0], 0), ([1, 0], 1), ([2, 0], 2), ([3, 0], 3), ([4, 0], 4), ([5, 0], 5), ([0, 1], 6), ([1, 1], 7),
  ([2, 1], 8), ([3, 1], 9), ([4, 1], 10), ([0, 2], 11), ([1, 2], 12), ([2, 2], 13), ([3, 2], 14), ([0, 3], 15),
  ([1, 3], 16), ([2, 3], 17), ([0, 4], 18), ([1, 4], 19), ([0, 5], 20)]

/-- Entry `(2, 6)` (multiindex_order_cache.py:78). -/
def orderCache_2_6 : List (List Nat × Nat) := [
  ([0, 0], 0), ([1, 0], 1), ([2, 0], 2), ([3, 0], 3), ([4, 0], 4), ([5, 0], 5), ([6, 0], 6), ([0, 1], 7),
  ([1, 1], 8), ([2, 1], 9), ([3, 1], 10), ([4, 1], 11), ([5, 1], 12), ([0, 2], 13), ([1, 2], 14), ([2, 2], 15),
  ([3, 2], 16), ([4, 2], 17), ([0, 3], 18), ([1, 3], 19), ([2, 3], 20), ([3, 3], 21), ([0, 4], 22), ([1, 4], 23),
  ([2, 4], 24), ([0, 5], 25), ([1, 5], 26), ([0, 6], 27)]

/-- Entry `(3, 1)` (multiindex_order_cache.py:109). -/
def orderCache_3_1 : List (List Nat × Nat) := [
  ([0, 0, 0], 0), ([1, 0, 0], 1), ([0, 1, 0], 2), ([0, 0, 1], 3)]

/-- Entry `(3, 2)` (multiindex_order_cache.py:116). -/
def orderCache_3_2 : List (List Nat × Nat) := [
  ([0, 0, 0], 0), ([1, 0, 0], 1), ([2, 0, 0], 2), ([0, 1, 0], 3), ([1, 1, 0], 4), ([0, 2, 0], 5), ([0, 0, 1], 6),
  ([1, 0, 1], 7), ([0, 1, 1], 8), ([0, 0, 2], 9)]

/-- Entry `(3, 3)` (multiindex_order_cache.py:129). -/
def orderCache_3_3 : List (List Nat × Nat) := [
  ([0, 0, 0], 0), ([1, 0, 0], 1), ([2, 0, 0], 2), ([3, 0, 0], 3), ([0, 1, 0], 4), ([1, 1, 0], 5), ([2, 1, 0], 6),
  ([0, 2, 0], 7), ([1, 2, 0], 8), ([0, 3, 0], 9), ([0, 0, 1], 10), ([1, 0, 1], 11), ([2, 0, 1], 12), ([0, 1, 1], 13),
  ([1, 1, 1], 14), ([0, 2, 1], 15), ([0, 0, 2], 16), ([1, 0, 2], 17), ([0, 1, 2], 18), ([0, 0, 3], 19)]

/-- Entry `(3, 4)` (multiindex_order_cache.py:152). -/
def orderCache_3_4 : List (List Nat × Nat) := [
  ([0, 0, 0], 0), ([1, 0, 0], 1), ([2, 0, 0], 2), ([3, 0, 0], 3), ([4, 0, 0], 4), ([0, 1, 0], 5), ([1, 1, 0], 6),
  ([2, 1, 0], 7), ([3, 1, 0], 8), ([0, 2, 0], 9), ([1, 2, 0], 10), ([2, 2, 0], 11), ([0, 3, 0], 12), ([1, 3, 0], 13),
  ([0, 4, 0], 14), ([0, 0, 1], 15), ([1, 0, 1], 16), ([2, 0, 1], 17), ([3, 0, 1], 18), ([0, 1, 1], 19),
  ([1, 1, 1], 20), ([2, 1, 1], 21), ([0, 2, 1], 22), ([1, 2, 1], 23), ([0, 3, 1], 24), ([0, 0, 2], 25),
  ([1, 0, 2], 26), ([2, 0, 2], 27), ([0, 1, 2], 28), ([1, 1, 2], 29), ([0, 2, 2], 30), ([0, 0, 3], 31),
  ([1, 0, 3], 32), ([0, 1, 3], 33), ([0, 0, 4], 34)]

/-- Entry `(3, 5)` (multiindex_order_cache.py:190). -/
def orderCache_3_5 : List (List Nat × Nat) := [
  ([0, 0, 0], 0), ([1, 0, 0], 1), ([2, 0, 0], 2), ([3, 0, 0], 3), ([4, 0, 0], 4), ([5, 0, 0], 5), ([0, 1, 0], 6),
  ([1, 1, 0], 7), ([2, 1, 0], 8), ([3, 1, 0], 9), ([4, 1, 0], 10), ([0, 2, 0], 11), ([1, 2, 0], 12), ([2, 2, 0], 13),
  ([3, 2, 0], 14), ([0, 3, 0], 15), ([1, 3, 0], 16), ([2, 3, 0], 17), ([0, 4, 0], 18), ([1, 4, 0], 19),
  ([0, 5, 0], 20), ([0, 0, 1], 21), ([1, 0, 1], 22), ([2, 0, 1], 23), ([3, 0, 1], 24), ([4, 0, 1], 25),
  ([0, 1, 1], 26), ([1, 1, 1], 27), ([2, 1, 1], 28), ([3, 1, 1], 29), ([0, 2, 1], 30), ([1, 2, 1], 31),
  ([2, 2, 1], 32), ([0, 3, 1], 33), ([1, 3, 1], 34), ([0, 4, 1], 35), ([0, 0, 2], 36), ([1, 0, 2], 37),
  ([2, 0, 2], 38), ([3, 0, 2], 39), ([0, 1, 2], 40), ([1, 1, 2], 41), ([2, 1, 2], 42), ([0, 2, 2], 43),
  ([1, 2, 2], 44), ([0, 3, 2], 45), ([0, 0, 3], 46), ([1, 0, 3], 47), ([2, 0, 3], 48), ([0, 1, 3], 49),
  ([1, 1, 3], 50), ([0, 2, 3], 51), ([0, 0, 4], 52), ([1, 0, 4], 53), ([0, 1, 4], 54), ([0, 0, 5], 55)]

/-- Entry `(3, 6)` (multiindex_order_cache.py:249). -/
def orderCache_3_6 : List (List Nat × Nat) := [
  ([0, 0, 0], 0), ([1, 0, 0], 1), ([2, 0, 0], 2), ([3, 0, 0], 3), ([4, 0, 0], 4), ([5, 0, 0], 5), ([6, 0, 0], 6),
  ([0, 1, 0], 7), ([1, 1, 0], 8), ([2, 1, 0], 9), ([3, 1, 0], 10), ([4, 1, 0], 11), ([5, 1, 0], 12), ([0, 2, 0], 13),
  ([1, 2, 0], 14), ([2, 2, 0], 15), ([3, 2, 0], 16), ([4, 2, 0], 17), ([0, 3, 0], 18), ([1, 3, 0], 19),
  ([2, 3, 0], 20), ([3, 3, 0], 21), ([0, 4, 0], 22), ([1, 4, 0], 23), ([2, 4, 0], 24), ([0, 5, 0], 25),
  ([1, 5, 0], 26), ([0, 6, 0], 27), ([0, 0, 1], 28), ([1, 0, 1], 29), ([2, 0, 1], 30), ([3, 0, 1], 31),
  ([4, 0, 1], 32), ([5, 0, 1], 33), ([0, 1, 1], 34), ([1, 1, 1], 35), ([2, 1, 1], 36), ([3, 1, 1], 37),
  ([4, 1, 1], 38), ([0, 2, 1], 39), ([1, 2, 1], 40), ([2, 2, 1], 41), ([3, 2, 1], 42), ([0, 3, 1], 43),
  ([1, 3, 1], 44), ([2, 3, 1], 45), ([0, 4, 1], 46), ([1, 4, 1], 47), ([0, 5, 1], 48), ([0, 0, 2], 49),
  ([1, 0, 2], 50), ([2, 0, 2], 51), ([3, 0, 2], 52), ([4, 0, 2], 53), ([0, 1, 2], 54), ([1, 1, 2], 55),
  ([2, 1, 2], 56), ([3, 1, 2], 57), ([0, 2, 2], 58), ([1, 2, 2], 59), ([2, 2, 2], 60), ([0, 3, 2], 61),
  ([1, 3, 2], 62), ([0, 4, 2], 63), ([0, 0, 3], 64), ([1, 0, 3], 65), ([2, 0, 3], 66), ([3, 0, 3], 67),
  ([0, 1, 3], 68), ([1, 1, 3], 69), ([2, 1, 3], 70), ([0, 2, 3], 71), ([1, 2, 3], 72), ([0, 3, 3], 73),
  ([0, 0, 4], 74), ([1, 0, 4], 75), ([2, 0, 4], 76), ([0, 1, 4], 77), ([1, 1, 4], 78), ([0, 2, 4], 79),
  ([0, 0, 5], 80), ([1, 0, 5], 81), ([0, 1, 5], 82), ([0, 0, 6], 83)]

/-- Entry `(4, 1)` (multiindex_order_cache.py:336). -/
def orderCache_4_1 : List (List Nat × Nat) := [
  ([0, 0, 0, 0], 0), ([1, 0, 0, 0], 1), ([0, 1, 0, 0], 2), ([0, 0, 1, 0], 3), ([0, 0, 0, 1], 4)]

/-- Entry `(4, 2)` (multiindex_order_cache.py:344). -/
def orderCache_4_2 : List (List Nat × Nat) := [
  ([0, 0, 0, 0], 0), ([1, 0, 0, 0], 1), ([2, 0, 0, 0], 2), ([0, 1, 0, 0], 3), ([1, 1, 0, 0], 4), ([0, 2, 0, 0], 5),
  ([0, 0, 1, 0], 6), ([1, 0, 1, 0], 7), ([0, 1, 1, 0], 8), ([0, 0, 2, 0], 9), ([0, 0, 0, 1], 10), ([1, 0, 0, 1], 11),
  ([0, 1, 0, 1], 12), ([0, 0, 1, 1], 13), ([0, 0, 0, 2], 14)]

/-- Entry `(4, 3)` (multiindex_order_cache.py:362). -/
def orderCache_4_3 : List (List Nat × Nat) := [
  ([0, 0, 0, 0], 0), ([1, 0, 0, 0], 1), ([2, 0, 0, 0], 2), ([3, 0, 0, 0], 3), ([0, 1, 0, 0], 4), ([1, 1, 0, 0], 5),
  ([2, 1, 0, 0], 6), ([0, 2, 0, 0], 7), ([1, 2, 0, 0], 8), ([0, 3, 0, 0], 9), ([0, 0, 1, 0], 10), ([1, 0, 1, 0], 11),
  ([2, 0, 1, 0], 12), ([0, 1, 1, 0], 13), ([1, 1, 1, 0], 14), ([0, 2, 1, 0], 15), ([0, 0, 2, 0], 16),
  ([1, 0, 2, 0], 17), ([0, 1, 2, 0], 18), ([0, 0, 3, 0], 19), ([0, 0, 0, 1], 20), ([1, 0, 0, 1], 21),
  ([2, 0, 0, 1], 22), ([0, 1, 0, 1], 23), ([1, 1, 0, 1], 24), ([0, 2, 0, 1], 25), ([0, 0, 1, 1], 26),
  ([1, 0, 1, 1], 27), ([0, 1, 1, 1], 28), ([0, 0, 2, 1], 29), ([0, 0, 0, 2], 30), ([1, 0, 0, 2], 31),
  ([0, 1, 0, 2], 32), ([0, 0, 1, 2], 33), ([0, 0, 0, 3], 34)]

/-- Entry `(4, 4)` (multiindex_order_cache.py:400). -/
def orderCache_4_4 : List (List Nat × Nat) := [
  ([0, 0, 0, 0], 0), ([1, 0, 0, 0], 1), ([2, 0, 0, 0], 2), ([3, 0, 0, 0], 3), ([4, 0, 0, 0], 4), ([0, 1, 0, 0], 5),
  ([1, 1, 0, 0], 6), ([2, 1, 0, 0], 7), ([3, 1, 0, 0], 8), ([0, 2, 0, 0], 9), ([1, 2, 0, 0], 10), ([2, 2, 0, 0], 11),
  ([0, 3, 0, 0], 12), ([1, 3, 0, 0], 13), ([0, 4, 0, 0], 14), ([0, 0, 1, 0], 15), ([1, 0, 1, 0], 16),
  ([2, 0, 1, 0], 17), ([3, 0, 1, 0], 18), ([0, 1, 1, 0], 19), ([1, 1, 1, 0], 20), ([2, 1, 1, 0], 21),
  ([0, 2, 1, 0], 22), ([1, 2, 1, 0], 23), ([0, 3, 1, 0], 24), ([0, 0, 2, 0], 25), ([1, 0, 2, 0], 26),
  ([2, 0, 2, 0], 27), ([0, 1, 2, 0], 28), ([1, 1, 2, 0], 29), ([0, 2, 2, 0], 30), ([0, 0, 3, 0], 31),
  ([1, 0, 3, 0], 32), ([0, 1, 3, 0], 33), ([0, 0, 4, 0], 34), ([0, 0, 0, 1], 35), ([1, 0, 0, 1], 36),
  ([2, 0, 0, 1], 37), ([3, 0, 0, 1], 38), ([0, 1, 0, 1], 39), ([1, 1, 0, 1], 40), ([2, 1, 0, 1], 41),
  ([0, 2, 0, 1], 42), ([1, 2, 0, 1], 43), ([0, 3, 0, 1], 44), ([0, 0, 1, 1], 45), ([1, 0, 1, 1], 46),
  ([2, 0, 1, 1], 47), ([0, 1, 1, 1], 48), ([1, 1, 1, 1], 49), ([0, 2, 1, 1], 50), ([0, 0, 2, 1], 51),
  ([1, 0, 2, 1], 52), ([0, 1, 2, 1], 53), ([0, 0, 3, 1], 54), ([0, 0, 0, 2], 55), ([1, 0, 0, 2], 56),
  ([2, 0, 0, 2], 57), ([0, 1, 0, 2], 58), ([1, 1, 0, 2], 59), ([0, 2, 0, 2], 60), ([0, 0, 1, 2], 61),
  ([1, 0, 1, 2], 62), ([0, 1, 1, 2], 63), ([0, 0, 2, 2], 64), ([0, 0, 0, 3], 65), ([1, 0, 0, 3], 66),
  ([0, 1, 0, 3], 67), ([0, 0, 1, 3], 68), ([0, 0, 0, 4], 69)]

/-- Entry `(4, 5)` (multiindex_order_cache.py:473). -/
def orderCache_4_5 : List (List Nat × Nat) := [
  ([0, 0, 0, 0], 0), ([1, 0, 0, 0], 1), ([2, 0, 0, 0], 2), ([3, 0, 0, 0], 3), ([4, 0, 0, 0], 4), ([5, 0, 0, 0], 5),
  ([0, 1, 0, 0], 6), ([1, 1, 0, 0], 7), ([2, 1, 0, 0], 8), ([3, 1, 0, 0], 9), ([4, 1, 0, 0], 10), ([0, 2, 0, 0], 11),
  ([1, 2, 0, 0], 12), ([2, 2, 0, 0], 13), ([3, 2, 0, 0], 14), ([0, 3, 0, 0], 15), ([1, 3, 0, 0], 16),
  ([2, 3, 0, 0], 17), ([0, 4, 0, 0], 18), ([1, 4, 0, 0], 19), ([0, 5, 0, 0], 20), ([0, 0, 1, 0], 21),
  ([1, 0, 1, 0], 22), ([2, 0, 1, 0], 23), ([3, 0, 1, 0], 24), ([4, 0, 1, 0], 25), ([0, 1, 1, 0], 26),
  ([1, 1, 1, 0], 27), ([2, 1, 1, 0], 28), ([3, 1, 1, 0], 29), ([0, 2, 1, 0], 30), ([1, 2, 1, 0], 31),
  ([2, 2, 1, 0], 32), ([0, 3, 1, 0], 33), ([1, 3, 1, 0], 34), ([0, 4, 1, 0], 35), ([0, 0, 2, 0], 36),
  ([1, 0, 2, 0], 37), ([2, 0, 2, 0], 38), ([3, 0, 2, 0], 39), ([0, 1, 2, 0], 40), ([1, 1, 2, 0], 41),
  ([2, 1, 2, 0], 42), ([0, 2, 2, 0], 43), ([1, 2, 2, 0], 44), ([0, 3, 2, 0], 45), ([0, 0, 3, 0], 46),
  ([1, 0, 3, 0], 47), ([2, 0, 3, 0], 48), ([0, 1, 3, 0], 49), ([1, 1, 3, 0], 50), ([0, 2, 3, 0], 51),
  ([0, 0, 4, 0], 52), ([1, 0, 4, 0], 53), ([0, 1, 4, 0], 54), ([0, 0, 5, 0], 55), ([0, 0, 0, 1], 56),
  ([1, 0, 0, 1], 57), ([2, 0, 0, 1], 58), ([3, 0, 0, 1], 59), ([4, 0, 0, 1], 60), ([0, 1, 0, 1], 61),
  ([1, 1, 0, 1], 62), ([2, 1, 0, 1], 63), ([3, 1, 0, 1], 64), ([0, 2, 0, 1], 65), ([1, 2, 0, 1], 66),
  ([2, 2, 0, 1], 67), ([0, 3, 0, 1], 68), ([1, 3, 0, 1], 69), ([0, 4, 0, 1], 70), ([0, 0, 1, 1], 71),
  ([1, 0, 1, 1], 72), ([2, 0, 1, 1], 73), ([3, 0, 1, 1], 74), ([0, 1, 1, 1], 75), ([1, 1, 1, 1], 76),
  ([2, 1, 1, 1], 77), ([0, 2, 1, 1], 78), ([1, 2, 1, 1], 79), ([0, 3, 1, 1], 80), ([0, 0, 2, 1], 81),
  ([1, 0, 2, 1], 82), ([2, 0, 2, 1], 83), ([0, 1, 2, 1], 84), ([1, 1, 2, 1], 85), ([0, 2, 2, 1], 86),
  ([0, 0, 3, 1], 87), ([1, 0, 3, 1], 88), ([0, 1, 3, 1], 89), ([0, 0, 4, 1], 90), ([0, 0, 0, 2], 91),
  ([1, 0, 0, 2], 92), ([2, 0, 0, 2], 93), ([3, 0, 0, 2], 94), ([0, 1, 0, 2], 95), ([1, 1, 0, 2], 96),
  ([2, 1, 0, 2], 97), ([0, 2, 0, 2], 98), ([1, 2, 0, 2], 99), ([0, 3, 0, 2], 100), ([0, 0, 1, 2], 101),
  ([1, 0, 1, 2], 102), ([2, 0, 1, 2], 103), ([0, 1, 1, 2], 104), ([1, 1, 1, 2], 105), ([0, 2, 1, 2], 106),
  ([0, 0, 2, 2], 107), ([1, 0, 2, 2], 108), ([0, 1, 2, 2], 109), ([0, 0, 3, 2], 110), ([0, 0, 0, 3], 111),
  ([1, 0, 0, 3], 112), ([2, 0, 0, 3], 113), ([0, 1, 0, 3], 114), ([1, 1, 0, 3], 115), ([0, 2, 0, 3], 116),
  ([0, 0, 1, 3], 117), ([1, 0, 1, 3], 118), ([0, 1, 1, 3], 119), ([0, 0, 2, 3], 120), ([0, 0, 0, 4], 121),
  ([1, 0, 0, 4], 122), ([0, 1, 0, 4], 123), ([0, 0, 1, 4], 124), ([0, 0, 0, 5], 125)]

/-- Entry `(4, 6)` (multiindex_order_cache.py:602). -/
def orderCache_4_6 : List (List Nat × Nat) := [
  ([0, 0, 0, 0], 0), ([1, 0, 0, 0], 1), ([2, 0, 0, 0], 2), ([3, 0, 0, 0], 3), ([4, 0, 0, 0], 4), ([5, 0, 0, 0], 5),
  ([6, 0, 0, 0], 6), ([0, 1, 0, 0], 7), ([1, 1, 0, 0], 8), ([2, 1, 0, 0], 9), ([3, 1, 0, 0], 10), ([4, 1, 0, 0], 11),
  ([5, 1, 0, 0], 12), ([0, 2, 0, 0], 13), ([1, 2, 0, 0], 14), ([2, 2, 0, 0], 15), ([3, 2, 0, 0], 16),
  ([4, 2, 0, 0], 17), ([0, 3, 0, 0], 18), ([1, 3, 0, 0], 19), ([2, 3, 0, 0], 20), ([3, 3, 0, 0], 21),
  ([0, 4, 0, 0], 22), ([1, 4, 0, 0], 23), ([2, 4, 0, 0], 24), ([0, 5, 0, 0], 25), ([1, 5, 0, 0], 26),
  ([0, 6, 0, 0], 27), ([0, 0, 1, 0], 28), ([1, 0, 1, 0], 29), ([2, 0, 1, 0], 30), ([3, 0, 1, 0], 31),
  ([4, 0, 1, 0], 32), ([5, 0, 1, 0], 33), ([0, 1, 1, 0], 34), ([1, 1, 1, 0], 35), ([2, 1, 1, 0], 36),
  ([3, 1, 1, 0], 37), ([4, 1, 1, 0], 38), ([0, 2, 1, 0], 39), ([1, 2, 1, 0], 40), ([2, 2, 1, 0], 41),
  ([3, 2, 1, 0], 42), ([0, 3, 1, 0], 43), ([1, 3, 1, 0], 44), ([2, 3, 1, 0], 45), ([0, 4, 1, 0], 46),
  ([1, 4, 1, 0], 47), ([0, 5, 1, 0], 48), ([0, 0, 2, 0], 49), ([1, 0, 2, 0], 50), ([2, 0, 2, 0], 51),
  ([3, 0, 2, 0], 52), ([4, 0, 2, 0], 53), ([0, 1, 2, 0], 54), ([1, 1, 2, 0], 55), ([2, 1, 2, 0], 56),
  ([3, 1, 2, 0], 57), ([0, 2, 2, 0], 58), ([1, 2, 2, 0], 59), ([2, 2, 2, 0], 60), ([0, 3, 2, 0], 61),
  ([1, 3, 2, 0], 62), ([0, 4, 2, 0], 63), ([0, 0, 3, 0], 64), ([1, 0, 3, 0], 65), ([2, 0, 3, 0], 66),
  ([3, 0, 3, 0], 67), ([0, 1, 3, 0], 68), ([1, 1, 3, 0], 69), ([2, 1, 3, 0], 70), ([0, 2, 3, 0], 71),
  ([1, 2, 3, 0], 72), ([0, 3, 3, 0], 73), ([0, 0, 4, 0], 74), ([1, 0, 4, 0], 75), ([2, 0, 4, 0], 76),
  ([0, 1, 4, 0], 77), ([1, 1, 4, 0], 78), ([0, 2, 4, 0], 79), ([0, 0, 5, 0], 80), ([1, 0, 5, 0], 81),
  ([0, 1, 5, 0], 82), ([0, 0, 6, 0], 83), ([0, 0, 0, 1], 84), ([1, 0, 0, 1], 85), ([2, 0, 0, 1], 86),
  ([3, 0, 0, 1], 87), ([4, 0, 0, 1], 88), ([5, 0, 0, 1], 89), ([0, 1, 0, 1], 90), ([1, 1, 0, 1], 91),
  ([2, 1, 0, 1], 92), ([3, 1, 0, 1], 93), ([4, 1, 0, 1], 94), ([0, 2, 0, 1], 95), ([1, 2, 0, 1], 96),
  ([2, 2, 0, 1], 97), ([3, 2, 0, 1], 98), ([0, 3, 0, 1], 99), ([1, 3, 0, 1], 100), ([2, 3, 0, 1], 101),
  ([0, 4, 0, 1], 102), ([1, 4, 0, 1], 103), ([0, 5, 0, 1], 104), ([0, 0, 1, 1], 105), ([1, 0, 1, 1], 106),
  ([2, 0, 1, 1], 107), ([3, 0, 1, 1], 108), ([4, 0, 1, 1], 109), ([0, 1, 1, 1], 110), ([1, 1, 1, 1], 111),
  ([2, 1, 1, 1], 112), ([3, 1, 1, 1], 113), ([0, 2, 1, 1], 114), ([1, 2, 1, 1], 115), ([2, 2, 1, 1], 116),
  ([0, 3, 1, 1], 117), ([1, 3, 1, 1], 118), ([0, 4, 1, 1], 119), ([0, 0, 2, 1], 120), ([1, 0, 2, 1], 121),
  ([2, 0, 2, 1], 122), ([3, 0, 2, 1], 123), ([0, 1, 2, 1], 124), ([1, 1, 2, 1], 125), ([2, 1, 2, 1], 126),
  ([0, 2, 2, 1], 127), ([1, 2, 2, 1], 128), ([0, 3, 2, 1], 129), ([0, 0, 3, 1], 130), ([1, 0, 3, 1], 131),
  ([2, 0, 3, 1], 132), ([0, 1, 3, 1], 133), ([1, 1, 3, 1], 134), ([0, 2, 3, 1], 135), ([0, 0, 4, 1], 136),
  ([1, 0, 4, 1], 137), ([0, 1, 4, 1], 138), ([0, 0, 5, 1], 139), ([0, 0, 0, 2], 140), ([1, 0, 0, 2], 141),
  ([2, 0, 0, 2], 142), ([3, 0, 0, 2], 143), ([4, 0, 0, 2], 144), ([0, 1, 0, 2], 145), ([1, 1, 0, 2], 146),
  ([2, 1, 0, 2], 147), ([3, 1, 0, 2], 148), ([0, 2, 0, 2], 149), ([1, 2, 0, 2], 150), ([2, 2, 0, 2], 151),
  ([0, 3, 0, 2], 152), ([1, 3, 0, 2], 153), ([0, 4, 0, 2], 154), ([0, 0, 1, 2], 155), ([1, 0, 1, 2], 156),
  ([2, 0, 1, 2], 157), ([3, 0, 1, 2], 158), ([0, 1, 1, 2], 159), ([1, 1, 1, 2], 160), ([2, 1, 1, 2], 161),
  ([0, 2, 1, 2], 162), ([1, 2, 1, 2], 163), ([0, 3, 1, 2], 164), ([0, 0, 2, 2], 165), ([1, 0, 2, 2], 166),
  ([2, 0, 2, 2], 167), ([0, 1, 2, 2], 168), ([1, 1, 2, 2], 169), ([0, 2, 2, 2], 170), ([0, 0, 3, 2], 171),
  ([1, 0, 3, 2], 172), ([0, 1, 3, 2], 173), ([0, 0, 4, 2], 174), ([0, 0, 0, 3], 175), ([1, 0, 0, 3], 176),
  ([2, 0, 0, 3], 177), ([3, 0, 0, 3], 178), ([0, 1, 0, 3], 179), ([1, 1, 0, 3], 180), ([2, 1, 0, 3], 181),
  ([0, 2, 0, 3], 182), ([1, 2, 0, 3], 183), ([0, 3, 0, 3], 184), ([0, 0, 1, 3], 185), ([1, 0, 1, 3], 186),
  ([2, 0, 1, 3], 187), ([0, 1, 1, 3], 188), ([1, 1, 1, 3], 189), ([0, 2, 1, 3], 190), ([0, 0, 2, 3], 191),
  ([1, 0, 2, 3], 192), ([0, 1, 2, 3], 193), ([0, 0, 3, 3], 194), ([0, 0, 0, 4], 195), ([1, 0, 0, 4], 196),
  ([2, 0, 0, 4], 197), ([0, 1, 0, 4], 198), ([1, 1, 0, 4], 199), ([0, 2, 0, 4], 200), ([0, 0, 1, 4], 201),
  ([1, 0, 1, 4], 202), ([0, 1, 1, 4], 203), ([0, 0, 2, 4], 204), ([0, 0, 0, 5], 205), ([1, 0, 0, 5], 206),
  ([0, 1, 0, 5], 207), ([0, 0, 1, 5], 208), ([0, 0, 0, 6], 209)]

/-- `multiindex_order_cache` (multiindex_order_cache.py:6-). -/
def orderCache : OrderCache := [
  ((2, 1), orderCache_2_1),
  ((2, 2), orderCache_2_2),
  ((2, 3), orderCache_2_3),
  ((2, 4), orderCache_2_4),
  ((2, 5), orderCache_2_5),
  ((2, 6), orderCache_2_6),
  ((3, 1), orderCache_3_1),
  ((3, 2), orderCache_3_2),
  ((3, 3), orderCache_3_3),
  ((3, 4), orderCache_3_4),
  ((3, 5), orderCache_3_5),
  ((3, 6), orderCache_3_6),
  ((4, 1), orderCache_4_1),
  ((4, 2), orderCache_4_2),
  ((4, 3), orderCache_4_3),
  ((4, 4), orderCache_4_4),
  ((4, 5), orderCache_4_5),
  ((4, 6), orderCache_4_6)]

/-- `get_index` (multiindex.py:508-533) with the shipped cache. -/
def getIndex (mi : List Nat) (r : Int) : Py Nat := getIndexWith orderCache mi r

end Verif.MI
