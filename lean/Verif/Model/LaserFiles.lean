import Verif.Model.Bytes

/-
The layouts in which the native LASER files are written (floats as bytes).
-/
namespace Alaya.LaserFiles
open Alaya

/-- `write_ibin` with one column. /repo/python/src/alayalite/laser/_io.py:62-67, _medoid.py:90-91 -/
def medoidIds (ids : List Nat) : Bytes := leBytes 4 ids.length ++ leBytes 4 1 ++ ids.flatMap (leBytes 4)

/-- `write_fbin`: `n` rows of `dim` floats. /repo/python/src/alayalite/laser/_io.py:54-59 -/
def fbin (n dim : Nat) (rows : Bytes) : Bytes := leBytes 4 n ++ leBytes 4 dim ++ rows

/-- `save_pca_params`. /repo/python/src/alayalite/laser/_pca.py:17-33 -/
def pca (dim : Nat) (mean matrix : Bytes) : Bytes := leBytes 8 dim ++ mean ++ matrix

/-- /repo/include/index/graph/laser/qg/qg_builder.hpp:376-380 -/
def cacheIds (ids : List Nat) : Bytes := leBytes 8 ids.length ++ ids.flatMap (leBytes 4)

/-- /repo/include/index/graph/laser/qg/qg_builder.hpp:383-386, 412-420 -/
def cacheNodes (nodeLen : Nat) (nodes : List Bytes) : Bytes := leBytes 8 nodes.length ++ leBytes 8 nodeLen ++ nodes.flatten

end Alaya.LaserFiles
