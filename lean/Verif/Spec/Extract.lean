import Verif.Spec.Collision

/-!
# What a commitment stands for

The values in a Merkle tree can be read off the messages that its maker has had hashed.
-/

namespace Verif.Spec
variable {X D : Type}

/-- The messages that a searcher has had hashed who has got the answers `l`, with their hashes. A question `x` may be for
the hash of a message, which is then `text x`, and the hash is `digest d` if the answer is `d`. -/
def hashed (text : X → Option Bytes) (digest : D → Commitment) (ask : List D → X) (l : List D) :
    List (Bytes × Commitment) :=
  (List.range l.length).flatMap fun j =>
    match text (ask (l.take j)), l[j]? with
    | some m, some d => [(m, digest d)]
    | _, _ => []

/-- The message with this hash among those hashed, the first if there are many. -/
def behind (known : List (Bytes × Commitment)) (d : Commitment) : Option Bytes :=
  (known.find? fun x => decide (x.2 = d)).map (·.1)

/-- The left or the right half of the message of a node. -/
def halfOf (m : Bytes) (left : Bool) : Option Commitment :=
  let half := if left then m.take 32 else m.drop 32
  if h : half.length = 32 then some ⟨half, h⟩ else none

/-- What a hash stands for, as far as is known: the message of the leaf at the index in a tree of height `k` with this
hash for root. -/
def leafBehind (known : List (Bytes × Commitment)) : Nat → Commitment → Nat → Option Bytes
  | 0, d, _ => behind known d
  | k + 1, d, index => do
    let m ← behind known d
    let child ← halfOf m (index / 2 ^ k % 2 = 0)
    leafBehind known k child index

/-- The leaf at the index of the tree of height `k` with this root, as far as it can be told from the first `s` hashes
asked for. -/
def standsFor {L : Nat} (K : Message L → Commitment) (ask : List Commitment → Message L) (s k : Nat)
    (root : Commitment) (index : Nat) : Option Bytes :=
  leafBehind (hashed (fun m : Message L => some m.val) id ask (answers K ask s)) k root index

end Verif.Spec
