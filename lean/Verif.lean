import Verif.Orbit
import Verif.Mesh
import Verif.MeshBasic
import Verif.MeshValid
import Verif.MeshFlip
import Verif.MeshCheck
import Verif.FlipLemmas
import Verif.Props.Flip
import Verif.MeshInsert
import Verif.Props.Insert
import Verif.MeshFaceStore
import Verif.MeshConnect
import Verif.Props.Connect
import Verif.Props.Alloc
import Verif.MeshSplit
import Verif.Props.Split
import Verif.Props.Triangulate
import Verif.MeshInsertFace
import Verif.Props.InsertFace
import Verif.MeshRemoveEdge
import Verif.Props.RemoveEdge
import Verif.Props.History
import Verif.Nav
import Verif.Props.Nav
import Verif.DisjointSets
import Verif.Props.DisjointSets
import Verif.MeshSwitch
import Verif.Props.Switch
import Verif.Compress
import Verif.Props.Compress
import Verif.Containers
import Verif.Props.Containers
import Verif.Vec
import Verif.Props.Vec
import Verif.Curve
import Verif.Props.Curve
import Verif.SurfacePoint
import Verif.Props.SurfacePoint
import Verif.Props.Bary
import Verif.Mollify
import Verif.Props.Mollify
import Verif.Fmm
import Verif.Props.Fmm
import Verif.BarycentricVector
import Verif.Props.BarycentricVector
import Verif.Props.Genus
import Verif.Loop
import Verif.LinAlg
import Verif.Props.LinAlg
import Verif.Soup
import Verif.Props.Soup
import Verif.Marching
import Verif.Props.Marching
import Verif.PointCloud
import Verif.Props.PointCloud
import Verif.Obj
import Verif.Props.Obj
import Verif.Quantity
import Verif.Props.Quantity
import Verif.Mutation
import Verif.Props.Mutation
import Verif.Dijkstra
import Verif.Props.Dijkstra
import Verif.NormalCoords
import Verif.Props.NormalCoords
import Verif.Props.NormalTrace
import Verif.Ring
import Verif.Props.Ring
import Verif.KeyOrb
import Verif.GMesh
import Verif.GMeshBasic
import Verif.Props.Invert
import Verif.GMeshBuild
import Verif.Props.Build
import Verif.Props.BuildEdges
import Verif.Props.Duplicate
import Verif.Props.Separate
import Verif.Props.Orient
import Verif.SoupOrient
import Verif.Props.SoupOrient
import Verif.MeshBuild
import Verif.MeshBuildSides
import Verif.MeshBuildLoops
import Verif.MeshBuildFinal
import Verif.MeshBuildCheck
import Verif.Props.MeshBuild
import Verif.Rich
import Verif.Props.Rich
import Verif.MeshRemoveVertex
import Verif.Props.RemoveVertex
import Verif.MeshSeparateEdge
import Verif.Props.SeparateEdge
import Verif.MeshRemoveFace
import Verif.Props.RemoveFace
import Verif.MeshContract
import Verif.MeshCollapse
import Verif.MeshCollapseValid
import Verif.MeshCollapseFin
import Verif.MeshCollapseInt
import Verif.MeshCollapseBdy
import Verif.Props.Collapse
import Verif.Delaunay
import Verif.DelaunayGeom
import Verif.DelaunayMesh
import Verif.Props.Delaunay
import Verif.Stats
import Verif.Props.Stats
import Verif.Props.FaceList
import Verif.Intrinsic
import Verif.IntrinsicBasic
import Verif.Props.GaussBonnet
import Verif.Props.Laplacian
import Verif.Props.DEC
import Verif.Tangent
import Verif.Embedded
import Verif.Props.Tangent
import Verif.Props.TangentVertex
import Verif.Props.Connection
import Verif.Props.Embedded
import Verif.Props.Normals
import Verif.Props.AreaGradient
import Verif.DirectionFields
import Verif.Props.DirectionFields
import Verif.Tufted
import Verif.Props.Tufted
import Verif.Elementary
import Verif.Props.Elementary
import Verif.SeparateVerts
import Verif.Props.SeparateVerts
import Verif.GNav
import Verif.Props.GNav
import Verif.GFlip
import Verif.Props.GFlip
import Verif.GRich
import Verif.Props.GRich
import Verif.TwinBuild
import Verif.TwinBuildSides
import Verif.TwinBuildFinal
import Verif.Props.TwinBuild
import Verif.ToManifold
import Verif.Props.ToManifold
import Verif.Subdivide
import Verif.SubdivideEdges
import Verif.SubdivideFaces
import Verif.SubdivideFace
import Verif.SubdivideAll
import Verif.Props.Subdivide
import Verif.LoopSub
import Verif.LoopSplit
import Verif.LoopTab
import Verif.LoopInv
import Verif.LoopStep
import Verif.LoopFlip
import Verif.LoopTurn
import Verif.Props.LoopSub
import Verif.Simplify
import Verif.SimplifyMesh
import Verif.SimplifyLoop
import Verif.SimplifyQuadric
import Verif.Props.Simplify
import Verif.Surgery
import Verif.SurgeryStep
import Verif.SurgeryLoop
import Verif.Props.Surgery
import Verif.Polygon
import Verif.PolygonBasic
import Verif.PolygonTriangle
import Verif.PolygonMesh
import Verif.Props.Polygon
import Verif.PolygonFan
import Verif.Props.PolygonFan
import Verif.PolygonConnection
import Verif.PolygonConnectionForm
import Verif.Props.PolygonConnection
import Verif.StlOff
import Verif.Props.StlOff
import Verif.PolygonHeat
import Verif.Props.PolygonHeat
import Verif.PolygonSigned
import Verif.Props.PolygonSigned
import Verif.HeatDistance
import Verif.Props.HeatDistance
import Verif.Bff
import Verif.Props.Bff
import Verif.VectorHeat
import Verif.Props.VectorHeat
import Verif.Uniformize
import Verif.Props.Uniformize
import Verif.Props.UniformizeLinear
import Verif.Stripes
import Verif.Props.Stripes
import Verif.Props.StripesSingular
import Verif.StripeEnergy
import Verif.Props.StripeEnergy
