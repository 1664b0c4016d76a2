import Verif.Model.PyIndex

/-! What a user of the item-id API sees: a map from non-empty item ids to (vector, record). -/
namespace Alaya.Spec
open Py

abbrev ItemMap := Bytes → Option Row

def ItemMap.put (m : ItemMap) (item : Bytes) (row : Row) : ItemMap := fun k => if k = item then some row else m k
def ItemMap.del (m : ItemMap) (item : Bytes) : ItemMap := fun k => if k = item then none else m k

/-- Effect of a call on the map: inserting a used id and removing an unused one throw and change nothing; a record
without item id cannot be looked up. -/
def ItemMap.call (m : ItemMap) : Call → ItemMap
  | .insert _ row => if row.2.itemId = [] ∨ (m row.2.itemId).isSome then m else m.put row.2.itemId row
  | .upsert _ row => if row.2.itemId = [] then m else m.put row.2.itemId row
  | .removeItem item => m.del item
  | .removeId _ => m

end Alaya.Spec
