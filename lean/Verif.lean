import Verif.Dgf.Props
import Verif.Implicit.Elements
import Verif.BoundaryIds.Insertion
import Verif.Circulate.Touch
import Verif.AddParallel.Props
import Verif.NewFaces.Props
import Verif.PartIter.Props
import Verif.BoundaryFlag.Props
import Verif.InterfaceGeo.Props
import Verif.Markers.Props
import Verif.ParSolve.Props
import Verif.Entity.Props
import Verif.Incident.Props
import Verif.InterfaceFactory.Props
import Verif.BoundaryIds.Props
import Verif.Implicit.Props
import Verif.Implicit.StructuredProps
import Verif.HoleRemesh.Props
import Verif.Clip.Measure
import Verif.Transfer.Props
import Verif.Transfer.Interface
import Verif.Gradient.Props
import Verif.Jacobian.Blocks
import Verif.Jacobian.Calls
import Verif.Trace.Props
import Verif.MoveGeo.Simplex
import Verif.MoveGeo.Props
import Verif.MoveGeo.Conforming
import Verif.MoveGeo.Ensured
import Verif.MoveGeo.Space
import Verif.MoveGeo.History
import Verif.MoveMesh.Props
import Verif.Solve.Props
import Verif.Threads.Props
import Verif.Container.Props
import Verif.Curvature.Props
import Verif.LongestEdge.Props
import Verif.Indicator.Props
import Verif.Distance.Props
import Verif.Clip.Area
import Verif.ObjStream.Own
import Verif.ObjStream.Props
import Verif.Parallel.Exchange
import Verif.Ranks.Props
import Verif.Movement.Queue
import Verif.Adapt.Props
import Verif.InterfaceOps.History
import Verif.ConnComp.Build
import Verif.ConnComp.Exact
import Verif.Components.Props
import Verif.Marks.Props
import Verif.InterfaceIndexSet.Boundary
import Verif.InterfaceIndexSet.Visited
import Verif.InterfaceIter.Props
import Verif.Gmsh.Props
import Verif.Gmsh.Grid
import Verif.Factory.Props
import Verif.Factory.SegBoundary
import Verif.SubEntities.Props
import Verif.Normals.Props
import Verif.IndexSet.Props
import Verif.IdSet.Props
import Verif.RefElem.Props
import Verif.MultiId.Props
import Verif.InterfaceGeo.Twist
import Verif.Refine.Model
import Verif.Refine.Props
import Verif.Refine.Examples
import Verif.Refine.Removal
import Verif.Refine.Global
import Verif.Conserve.Model
import Verif.Conserve.Geometry
import Verif.Conserve.Insert
import Verif.Conserve.Remove
import Verif.Conserve.Props
import Verif.Conserve.Examples
import Verif.Conserve.History
import Verif.Conserve.Flags
import Verif.InterfaceTransfer.Model
import Verif.InterfaceTransfer.Props
import Verif.InterfaceTransfer.Run
import Verif.InterfaceTransfer.Values
import Verif.InterfaceTransfer.Examples
import Verif.InterfaceTransfer.History
import Verif.InterfaceTransfer.Extend
import Verif.Sides.Star
import Verif.Sides.Model
import Verif.Sides.Local
import Verif.Sides.Props
import Verif.Sides.Regions
import Verif.Sides.Grid
import Verif.Sides.GridProps
import Verif.Sides.History
import Verif.Sides.Examples
import Verif.Sides.Add
import Verif.Sides.Space
import Verif.Sides.SpaceExample
import Verif.Generated.Props
import Verif.MoveParallel.Props
import Verif.Distance.Space
import Verif.MoveParallel.Coupling
import Verif.Trace.Arrays
import Verif.Refine.Terminate
import Verif.Refine.Stuck
import Verif.IndexSet.Sizes
import Verif.Refine.Euler
import Verif.AdaptParallel.Ghosts
import Verif.IntersectionIter.Props
import Verif.IntersectionIter.Flux
import Verif.InterfaceIndexSet.Sums
import Verif.Indicator.Processes
