import Verif.Spec.Noted
/-
Model of a SortedDeque or SortedCollection whose items are objects that change while they are in it. The code computes the key of an item once, when it is put in
(sorted_deque.py 97, 102-107; sorted_collection.py 81-85, 149-152, 156-159), and never again until the deque is built anew.
-/
namespace S2P.SD
variable {K V : Type} [LinearOrder K]

/-- Any number of happenings. An item that changes touches neither `_keys` nor `_items`, only what `_key(item)` gives from now on (and what `==` and `<` between
items give, which are arguments of each call). Simplification: keys themselves do not change; this leaves out the default key function (the identity,
sorted_collection.py 81) on items that change. -/
def live (s : SD K V) : List (Spec.Happens K V) → SD K V × List (Py Unit)
  | [] => (s, [])
  | .change k :: hs => live { s with key := k } hs
  | .call eq lt dec op :: hs =>
    let (t, r) := @apply K V _ _ _ eq lt dec s op
    let (t', rs) := live t hs
    (t', r :: rs)

end S2P.SD
