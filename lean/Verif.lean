import Verif.Props.Hash
import Verif.Props.Morton
import Verif.Props.Bits
import Verif.Props.Bvh
import Verif.Props.BvhRefit
import Verif.Props.BvhBuild
import Verif.Props.BvhBuildRefit
import Verif.Props.SpatialHash
import Verif.Props.GridCoord
import Verif.Props.GridAccess
import Verif.Props.GridReorder
import Verif.Props.GridComplement
import Verif.Props.GridRestructure
import Verif.Props.Kernel
import Verif.Props.SparseGrid
import Verif.Props.Sample
import Verif.Props.Owner
import Verif.Props.Complex
import Verif.Props.SmallMat
import Verif.Props.Givens
import Verif.Props.Eigen
import Verif.Props.Elastic
import Verif.Props.Distance
import Verif.Props.Krylov
import Verif.Props.Rotation
import Verif.Props.ScalarMath
import Verif.Props.PolyRoots
import Verif.Props.Plasticity
import Verif.Props.Friction
import Verif.Props.Transform
import Verif.Props.Dihedral
import Verif.Props.Poisson
import Verif.Props.Mpm
import Verif.Props.MatrixUtils
import Verif.Props.Stress
import Verif.Props.Shapes
import Verif.Props.Volumes
import Verif.Props.Collider
import Verif.Props.Lbvs
import Verif.Props.Bvtt
import Verif.Props.Buckets
import Verif.Props.Particles
import Verif.Props.LevelSetDomain
import Verif.Props.Eikonal
import Verif.Props.Pcg
import Verif.Props.DenseField
import Verif.Props.Sampling
import Verif.Props.TileIter
import Verif.Props.DofView
import Verif.Props.MeshNormal
import Verif.Props.MeshIO
import Verif.Props.CopyPtr
import Verif.Props.ExactGeo
import Verif.Props.ExactCcd
import Verif.Props.MpmSetup
import Verif.Props.VariantDispatch
import Verif.Props.LiteTile
import Verif.Props.VecUtil
import Verif.Props.TypeName
import Verif.Props.LiteBht
import Verif.Props.BitPack
import Verif.Props.BhtGrow
import Verif.Props.RingBuffer
import Verif.Props.SmallString
import Verif.Props.BitMask
import Verif.Props.Callbacks
import Verif.Props.Iter
import Verif.Props.Rational
import Verif.Props.NumCCD
import Verif.Props.Scan
import Verif.Props.Radix
import Verif.Props.MergeSort
import Verif.Props.Vector
import Verif.Props.TileVector
import Verif.Props.Function
import Verif.Props.UniquePtr
import Verif.Props.Mutex
import Verif.Props.ParkingLot
import Verif.Props.Atomics
import Verif.Props.Queue
import Verif.Model.RBTree
import Verif.Spec.RBTree
import Verif.Proof.RBTreeHeap
import Verif.Proof.RBTreeInsert
import Verif.Proof.RBTreeBalance
import Verif.Proof.RBTreeRemove
import Verif.Proof.RBTreePlace
import Verif.Proof.RBTreeSwap
import Verif.Proof.RBTreeErase
import Verif.Proof.RBTreeIter
import Verif.Proof.RBTreeMap
import Verif.Props.RBTree
import Verif.Model.Bht
import Verif.Model.BhtLock
import Verif.Proof.Bht
import Verif.Props.Bht
import Verif.Props.BhtLock
import Verif.Model.UnionFind
import Verif.Proof.UnionFind
import Verif.Props.UnionFind
import Verif.Props.Coloring
import Verif.Props.MaxFlow
import Verif.Props.Memory
import Verif.Props.Resource
import Verif.Props.HashTable
import Verif.Props.Bcht
import Verif.Props.Sparse
import Verif.Props.Spmv
import Verif.Props.SparseBuild
import Verif.Props.SparseTranspose
